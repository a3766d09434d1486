import Verif.Model.GlopSession
import Verif.Props.Populate
import Verif.Props.GlopSolve

/-!
# Properties C67, C68 and C72: strong branching sessions, status queries and primal rays
-/

namespace MiniMip
namespace Glop

/-! ### C51: which bounds are called valid -/

/-- **C51** (Glop), partial: whatever the two solves end with, a bound that is called valid is the objective value of a
solve that returned OK and ended optimal, dual feasible or dual unbounded, or the branch has no point (its bounds
cross by more than 1/2) and the bound is the objective limit.  Missing: as in `C51_valid_flags_partial`. -/
theorem C51_valid_statuses_partial (s s' : Session) (col : Nat) (factor eps v : ℚ) (limit : Dbl)
    (down up : BranchSolve) (r : BranchResult)
    (h : strongBranch s col factor eps v limit down up = .ok (s', r)) :
    ∃ lower upper, s.scaledBounds[col]? = some (lower, upper) ∧
    (r.downValid = some true →
      (down.ok = true ∧ (down.status = .optimal ∨ down.status = .dualFeasible ∨ down.status = .dualUnbounded) ∧
        r.downBound = some down.objective) ∨
      (¬ Dbl.le (Dbl.sub lower (.fin (1 / 2))) (.fin ⌈v * factor - 1 - eps⌉) = true ∧ r.downBound = some limit)) ∧
    (r.upValid = some true →
      (up.ok = true ∧ (up.status = .optimal ∨ up.status = .dualFeasible ∨ up.status = .dualUnbounded) ∧
        r.upBound = some up.objective) ∨
      (¬ Dbl.le (.fin ⌊v * factor + 1 + eps⌋) (Dbl.add upper (.fin (1 / 2))) = true ∧ r.upBound = some limit)) := by
  unfold strongBranch at h
  cases hb : s.scaledBounds[col]? with
  | none => rw [hb] at h; cases h
  | some b =>
    obtain ⟨lower, upper⟩ := b
    rw [hb] at h
    have hr : (solveDownAndUpStrongBranch lower upper factor eps v limit down.answer up.answer).1 = r := by
      simp only [Outcome.ok.injEq, Prod.mk.injEq] at h
      exact h.2
    have ha : ∀ (b : BranchSolve) i o, b.answer = some (i, o, true) → b.ok = true ∧
        (b.status = .optimal ∨ b.status = .dualFeasible ∨ b.status = .dualUnbounded) ∧ o = b.objective := by
      intro b i o hb
      unfold BranchSolve.answer isDualBoundValid at hb
      split at hb
      · next hok =>
        simp only [Option.some.injEq, Prod.mk.injEq, decide_eq_true_eq] at hb
        exact ⟨hok, hb.2.2, hb.2.1.symm⟩
      · cases hb
    have key := C51_valid_flags_partial lower upper factor eps v limit down.answer up.answer
    rw [hr] at key
    refine ⟨lower, upper, rfl, fun hv => ?_, fun hv => ?_⟩
    · rcases key.1 hv with ⟨i, o, h1, h2⟩ | h1
      · obtain ⟨h3, h4, rfl⟩ := ha _ _ _ h1
        exact .inl ⟨h3, h4, h2⟩
      · exact .inr h1
    · rcases key.2 hv with ⟨i, o, h1, h2⟩ | h1
      · obtain ⟨h3, h4, rfl⟩ := ha _ _ _ h1
        exact .inl ⟨h3, h4, h2⟩
      · exact .inr h1

/-- A down branch that is solved, and an up branch without points. -/
example (settings : Settings) : ∃ s' r, strongBranch { iface := { lp := {} }, settings, scaledBounds := [(.fin 0, .fin 2)] }
    0 1 (1 / 10 ^ 8) (5 / 2) .pinf ⟨true, 7, .fin 1, .dualFeasible, false, []⟩ ⟨false, 0, .nan, .abnormal, false, []⟩ =
      .ok (s', r) ∧ r.downValid = some true ∧ r.downBound = some (.fin 1) ∧ r.upValid = some true ∧
    r.upBound = some .pinf := by
  have hd : downBranchBound (5 / 2 * 1) (1 / 10 ^ 8) = 2 := by
    norm_num [downBranchBound, Int.ceil_eq_iff]
  have hu : upBranchBound (5 / 2 * 1) (1 / 10 ^ 8) = 3 := by
    norm_num [upBranchBound, Int.floor_eq_iff]
  refine ⟨_, _, rfl, ?_⟩
  unfold solveDownAndUpStrongBranch
  simp only [hd, hu]
  norm_num [Dbl.le, Dbl.sub, Dbl.add, Dbl.neg, BranchSolve.answer, isDualBoundValid]

/-! ### C47: reading a file -/

/-- **C47** (Glop): `ReadLpFromFile` returns OK exactly if the file could be read; then the interface holds the LP of the
file, otherwise nothing is changed. -/
theorem C47_read_status (g : Interface) (file : Option LinearProgram) :
    ((readLpFromFile g file).2 = true ↔ ∃ lp, file = some lp) ∧
    (∀ lp s, file = some lp → Refines lp s → Refines (readLpFromFile g file).1.lp s) ∧
    (file = none → (readLpFromFile g file).1 = g) := by
  cases file with
  | none => simp [readLpFromFile]
  | some lp => exact ⟨by simp [readLpFromFile], by rintro _ s ⟨⟩ h; exact h, by simp⟩

/-! ### C67: a strong branching session -/

/-- A call of `SolveDownAndUpStrongBranch`. -/
structure BranchCall where
  col : Nat
  factor : ℚ
  eps : ℚ
  value : ℚ
  limit : Dbl
  down : BranchSolve
  up : BranchSolve

/-- The calls, whatever they return. -/
def runBranchings : Session → List BranchCall → Outcome Session
  | s, [] => .ok s
  | s, c :: r => do
    let (s, _) ← strongBranch s c.col c.factor c.eps c.value c.limit c.down c.up
    runBranchings s r

/-- `StartStrongBranching`, the calls, `EndStrongBranching`. -/
def session (s : Session) (calls : List BranchCall) : Outcome Session := do
  let s ← startStrongBranching s
  let s ← runBranchings s calls
  endStrongBranching s

theorem set_self {α : Type} (l : List α) (n : Nat) (x : α) (h : l[n]? = some x) : l.set n x = l := by
  obtain ⟨hn, rfl⟩ := List.getElem?_eq_some_iff.mp h
  exact List.set_getElem_self hn

/-- What a call does not change. -/
structure Kept (s s' : Session) : Prop where
  lp : s'.iface.lp = s.iface.lp
  modified : s'.iface.modified = s.iface.modified
  scaling : s'.iface.useScaling = s.iface.useScaling
  time : s'.iface.timeLimitReached = s.iface.timeLimitReached
  iterations : s'.iface.numIterations = s.iface.numIterations
  settings : s'.settings = s.settings
  bounds : s'.scaledBounds = s.scaledBounds

theorem strongBranch_kept (s : Session) (col : Nat) (factor eps value : ℚ) (limit : Dbl)
    (down up : BranchSolve) (hc : col < s.scaledBounds.length) :
    ∃ s' r, strongBranch s col factor eps value limit down up = .ok (s', r) ∧ Kept s s' := by
  obtain ⟨⟨lo, hi⟩, hb⟩ : ∃ b, s.scaledBounds[col]? = some b := ⟨_, List.getElem?_eq_getElem hc⟩
  have hs := set_self _ _ _ hb
  simp only [strongBranch, hb]
  split <;> split <;>
    exact ⟨_, _, rfl, ⟨rfl, rfl, rfl, rfl, rfl, rfl, by simp [Session.solveBranch, hs]⟩⟩

theorem runBranchings_kept (s : Session) (calls : List BranchCall)
    (hc : ∀ c ∈ calls, c.col < s.scaledBounds.length) :
    ∃ s', runBranchings s calls = .ok s' ∧ Kept s s' := by
  induction calls generalizing s with
  | nil => exact ⟨s, rfl, ⟨rfl, rfl, rfl, rfl, rfl, rfl, rfl⟩⟩
  | cons c r ih =>
    obtain ⟨s1, res, h1, h2⟩ := strongBranch_kept s c.col c.factor c.eps c.value c.limit c.down c.up
      (hc c (by simp))
    obtain ⟨s2, h3, h4⟩ := ih s1 (fun d hd => by rw [h2.bounds]; exact hc d (by simp [hd]))
    exact ⟨s2, by simp [runBranchings, h1, h3],
      ⟨h4.lp.trans h2.lp, h4.modified.trans h2.modified, h4.scaling.trans h2.scaling,
        h4.time.trans h2.time, h4.iterations.trans h2.iterations, h4.settings.trans h2.settings,
        h4.bounds.trans h2.bounds⟩⟩

/-- **C67** (Glop), partial: the basis and the solution status are missing
(`C67_status_and_basis_violated`).  A strong branching session, with any number of calls and whatever
the solver answers, never fails; afterwards the LP, the LP the next branching works on, the
parameters, `IsSolved` and `GetNumIterations` are what they were. -/
theorem C67_session_partial (s : Session) (calls : List BranchCall)
    (hc : ∀ c ∈ calls, c.col < s.scaledBounds.length) (usertime : Bool) :
    ∃ s', session s calls = .ok s' ∧ s'.iface.lp = s.iface.lp ∧ s'.scaledBounds = s.scaledBounds ∧
      getLpParameters usertime s'.settings = getLpParameters usertime s.settings ∧
      s'.isSolved = s.isSolved ∧ s'.iface.numIterations = s.iface.numIterations := by
  obtain ⟨s', h1, h2⟩ := runBranchings_kept s calls hc
  exact ⟨s', by simp [session, startStrongBranching, endStrongBranching, h1], h2.lp, h2.bounds,
    by rw [h2.settings], by rw [Session.isSolved, h2.modified]; rfl, h2.iterations⟩

/-- A down branch that is infeasible. -/
def infeasibleSolve : BranchSolve := ⟨true, 4, .pinf, .dualUnbounded, false, [.atLower, .basic]⟩
/-- An up branch that is infeasible, with another last basis. -/
def infeasibleSolve' : BranchSolve := ⟨true, 2, .pinf, .dualUnbounded, false, [.atUpper, .basic]⟩

/-- An LP with a column with bounds 0 and 1 and a row, solved to optimality. -/
def solvedSession (settings : Settings) : Session where
  iface :=
    { lp := { cols := [⟨.fin 0, .fin 1, 1, "x", [⟨0, 2⟩]⟩], rows := [⟨.fin 1, .pinf, "r"⟩] }
      statuses := [.basic, .atLower]
      modified := false }
  settings := settings
  status := .optimal
  scaledBounds := [(.fin 0, .fin 1)]

/-- A branching on the value 1/2. -/
def branchCall : BranchCall := ⟨0, 1, 1 / 10 ^ 8, 1 / 2, .pinf, infeasibleSolve, infeasibleSolve'⟩

example (settings : Settings) :
    ∀ c ∈ [branchCall, branchCall], c.col < (solvedSession settings).scaledBounds.length := by
  simp [branchCall, solvedSession]

/-- **C67** is violated: whenever both branches are solved, the solution status and the basis
after the session are those of the up branch.  So on an LP solved to optimality with both branches
infeasible, `IsSolved` stays true, `IsOptimal` becomes false, `IsPrimalInfeasible` becomes true and
the basis changes. -/
theorem C67_status_and_basis_violated (settings : Settings) :
    ∃ s', session (solvedSession settings) [branchCall] = .ok s' ∧
      (solvedSession settings).isSolved = true ∧ (solvedSession settings).isOptimal = true ∧
      s'.isSolved = true ∧ s'.isOptimal = false ∧ s'.isPrimalInfeasible = true ∧
      getBasisStatusForColumns (solvedSession settings).iface (fun _ => 0) ≠
        getBasisStatusForColumns s'.iface (fun _ => 0) := by
  have h1 : Dbl.le (Dbl.sub (.fin 0) (.fin (1 / 2)))
      (Dbl.fin (downBranchBound (1 / 2 * 1) (1 / 10 ^ 8))) = true := by
    simp [downBranchBound, Dbl.le, Dbl.sub, Dbl.add, Dbl.neg]
    norm_num
  have h2 : Dbl.le (Dbl.fin (upBranchBound (1 / 2 * 1) (1 / 10 ^ 8)))
      (Dbl.add (.fin 1) (.fin (1 / 2))) = true := by
    simp [upBranchBound, Dbl.le, Dbl.add]
    norm_num
  refine ⟨_, by
    simp only [session, startStrongBranching, endStrongBranching, runBranchings, strongBranch,
      solvedSession, branchCall, List.getElem?_cons_zero, h1, h2, if_true, Outcome.bind_ok]
    rfl, rfl, rfl, rfl, rfl, rfl, ?_⟩
  simp [Session.solveBranch, getBasisStatusForColumns, solvedSession, infeasibleSolve',
    infeasibleSolve]
  decide +kernel

/-! ### C68: the status queries -/

/-- **C68** (Glop).  For every status of the solver at most one of `IsOptimal`, `IsPrimalInfeasible`,
`IsPrimalUnbounded` is true; an optimal LP is primal and dual feasible and stable; a primal (dual)
feasible LP is not primal (dual) infeasible; a primal unbounded LP is dual infeasible and a dual
unbounded LP primal infeasible. -/
theorem C68_status_queries (s : Session) :
    ¬ (s.isOptimal = true ∧ s.isPrimalInfeasible = true) ∧
    ¬ (s.isOptimal = true ∧ s.isPrimalUnbounded = true) ∧
    ¬ (s.isPrimalInfeasible = true ∧ s.isPrimalUnbounded = true) ∧
    (s.isOptimal = true ↔ s.isPrimalFeasible = true ∧ s.isDualFeasible = true) ∧
    (s.isOptimal = true → s.isStable = true) ∧
    ¬ (s.isPrimalFeasible = true ∧ s.isPrimalInfeasible = true) ∧
    ¬ (s.isDualFeasible = true ∧ s.isDualInfeasible = true) ∧
    (s.isPrimalUnbounded = true → s.isDualInfeasible = true) ∧
    (s.isDualUnbounded = true → s.isPrimalInfeasible = true) := by
  rcases s with ⟨i, st, status, o, u, b⟩
  cases status <;> simp [Session.isOptimal, Session.isPrimalInfeasible, Session.isPrimalUnbounded,
    Session.isPrimalFeasible, Session.isDualFeasible, Session.isDualInfeasible,
    Session.isDualUnbounded, Session.isStable]

/-- What `IsStable` means (lpi.h:274-283): the solver stopped with a proof, or because of a limit, or
before any solve. -/
theorem C68_stable (s : Session) :
    s.isStable = true ↔
      (s.status = .optimal ∨ s.status = .primalInfeasible ∨ s.status = .dualInfeasible ∨
        s.status = .infeasibleOrUnbounded ∨ s.status = .primalUnbounded ∨ s.status = .dualUnbounded ∨
        s.status = .init) ∨
      ((s.status = .primalFeasible ∨ s.status = .dualFeasible) ∧
        (s.objectiveLimitIsExceeded = true ∨ s.iterationLimitIsExceeded = true ∨
          s.timeLimitIsExceeded = true)) := by
  rcases s with ⟨i, st, status, o, u, b⟩
  cases status <;> simp [Session.isStable, Session.objectiveLimitIsExceeded,
    Session.iterationLimitIsExceeded, Session.timeLimitIsExceeded] <;> tauto

/-! ### C72: primal rays -/

/-- A ray that shows that the LP is unbounded: from every feasible point one can go along it as far
as one likes, stays feasible and improves the objective. -/
def LpSpec.IsRay (s : LpSpec) (d : Int → ℚ) : Prop :=
  ∀ x, s.Feasible x → ∀ t : ℚ, 0 < t →
    s.Feasible (fun i => x i + t * d i) ∧
    if s.maximize then s.value x < s.value (fun i => x i + t * d i)
    else s.value (fun i => x i + t * d i) < s.value x

theorem value_along (s : LpSpec) (x d : Int → ℚ) (t : ℚ) :
    s.value (fun i => x i + t * d i) = s.value x + t * s.value d := by
  simp only [LpSpec.value, Finset.mul_sum, ← Finset.sum_add_distrib]
  exact Finset.sum_congr rfl fun c _ => by ring

/-- The list a getter returns as a point. -/
def asPoint (l : List ℚ) (i : Int) : ℚ := l.getD i.toNat 0

theorem feasible_congr (s : LpSpec) (x y : Int → ℚ) (h : ∀ c < s.numCols, x c = y c) :
    (s.Feasible x ↔ s.Feasible y) ∧ s.value x = s.value y := by
  have hsum : ∀ f : Nat → ℚ, (∑ c ∈ Finset.range s.numCols, f c * x c) =
      ∑ c ∈ Finset.range s.numCols, f c * y c := fun f =>
    Finset.sum_congr rfl fun c hc => by rw [h c (Finset.mem_range.mp hc)]
  refine ⟨?_, hsum _⟩
  unfold LpSpec.Feasible
  refine and_congr (forall₂_congr fun c hc => by rw [h c hc]) (forall₂_congr fun r _ => by
    rw [hsum])

theorem isRay_congr (s : LpSpec) (d e : Int → ℚ) (h : ∀ c < s.numCols, d c = e c) :
    s.IsRay d ↔ s.IsRay e := by
  have hc : ∀ (x : Int → ℚ) (t : ℚ), ∀ c < s.numCols, x c + t * d c = x c + t * e c := by
    intro x t c hc; rw [h c hc]
  unfold LpSpec.IsRay
  refine forall₂_congr fun x _ => forall₂_congr fun t _ => ?_
  obtain ⟨h1, h2⟩ := feasible_congr s (fun i => x i + t * d i) (fun i => x i + t * e i) (hc x t)
  rw [h1, h2]

/-- **C72** is violated by the Glop interface, for every LP with a feasible point: whenever the solver
holds a ray, `GetPrimalRay` returns its negative, which is not a ray, because the objective gets
worse along it. -/
theorem C72_primal_ray_violated (g : Interface) (s : LpSpec) (h : Refines g.lp s)
    (x : Int → ℚ) (hx : s.Feasible x) (ray : Nat → ℚ) (hr : s.IsRay fun i => ray i.toNat) :
    ¬ s.IsRay (asPoint (getPrimalRay g ray)) := by
  have heq : ∀ c < s.numCols, asPoint (getPrimalRay g ray) (c : Nat) = -ray c := by
    intro c hc
    have : c < g.lp.cols.length := by rw [h.numCols]; exact hc
    simp [asPoint, getPrimalRay, this]
  intro hcon
  rw [isRay_congr s _ (fun i => -ray i.toNat) (fun c hc => by rw [heq c hc]; simp)] at hcon
  have h1 := (hr x hx 1 one_pos).2
  have h2 := (hcon x hx 1 one_pos).2
  simp only [value_along] at h1 h2
  have hneg : s.value (fun i => -ray i.toNat) = -s.value fun i => ray i.toNat := by
    simp only [LpSpec.value, mul_neg, Finset.sum_neg_distrib]
  rw [hneg] at h2
  split at h1
  · next hm => rw [if_pos hm] at h2; linarith
  · next hm => rw [if_neg hm] at h2; linarith

/-- Maximise `x` with `x ≥ 0`. -/
def rayLp : LpSpec := ⟨0, 1, true, fun _ => .fin 0, fun _ => .pinf, fun _ => 1, fun _ => .nan,
  fun _ => .nan, fun _ _ => 0⟩

/-- The LP as the interface stores it. -/
def rayInterface : Interface :=
  { lp := { cols := [⟨.fin 0, .pinf, 1, "x", []⟩], rows := [], maximize := true } }

example : Refines rayInterface.lp rayLp ∧ rayLp.Feasible (fun _ => 0) ∧
    rayLp.IsRay (fun i => (fun _ : Nat => (1 : ℚ)) i.toNat) ∧
    getPrimalRay rayInterface (fun _ => 1) = [-1] := by
  refine ⟨⟨rfl, rfl, rfl, ?_, by simp [rayInterface]⟩, ?_, ?_, by decide +kernel⟩
  · intro c col hc
    match c, hc with
    | 0, hc =>
      simp only [rayInterface, List.getElem?_cons_zero, Option.some.injEq] at hc
      subst hc
      exact ⟨rfl, rfl, rfl, by simp [SparseVector.Clean, SparseVector.StrictSorted], by simp, by simp [rayLp]⟩
  · refine ⟨fun c _ => ?_, fun r hr => absurd hr (by simp [rayLp])⟩
    simp [Between, rayLp, Dbl.le]
  · intro x hx t ht
    refine ⟨⟨fun c hc => ?_, fun r hr => absurd hr (by simp [rayLp])⟩, ?_⟩
    · have := (hx.1 c hc).1
      simp only [rayLp, Dbl.le, decide_eq_true_eq] at this
      simp only [Between, rayLp, Dbl.le, decide_eq_true_eq, and_true]
      linarith
    · simp [rayLp, LpSpec.value, ht]

end Glop

namespace Soplex

open Glop (LpSpec asPoint)

/-- **C72** (SoPlex).  If SoPlex says it has a ray and hands out a ray of the LP, `GetPrimalRay` returns
a ray of the LP; if it cannot hand it out, an error. -/
theorem C72_primal_ray (g : Interface) (s : LpSpec) (h : Glop.Refines g.lp s) (ray : Nat → ℚ)
    (hr : s.IsRay fun i => ray i.toNat) :
    (∃ l, getPrimalRay g true (some ray) = .ok l ∧ (l.length : Int) = getNumberOfColumns g ∧
      s.IsRay (asPoint l)) ∧
    ∃ msg, getPrimalRay g true none = .error msg := by
  refine ⟨⟨_, by simp only [getPrimalRay, Outcome.check, if_true, Outcome.bind_ok]; rfl,
    by simp [getNumberOfColumns], ?_⟩, ⟨_, by simp [getPrimalRay, Outcome.check]; rfl⟩⟩
  rw [Glop.isRay_congr s _ (fun i => ray i.toNat)]
  · exact hr
  · intro c hc
    have : c < g.lp.cols.length := by rw [h.numCols]; exact hc
    simp [asPoint, this]

end Soplex
end MiniMip
