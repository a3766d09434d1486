import Verif.Model.DefaultRunner
import Verif.Props.CutRegistry

/-!
# Properties C24, C25: the cutting loop

All theorems hold for every behaviour of the LP solver, the generators and the selector.
-/

namespace MiniMip.Runner
variable {W : Type}

/-- The row of the LP that stands for a cut: `-infinity ≤ row · x ≤ rhs`, where `infinity` is the number the LP
interface takes for infinite. -/
def asRow (infinity : Dbl) (c : CutData) : LpRow :=
  { row := c.row, lhs := infinity.neg, rhs := .fin c.rhs, name := c.name }

/-- Numbers cuts from `n` on. -/
def numbered (n : Nat) : List CutData → List CutData
  | [] => []
  | c :: cs => { c with index := some (n : Int) } :: numbered (n + 1) cs

theorem numbered_append (n : Nat) (a b : List CutData) :
    numbered n (a ++ b) = numbered n a ++ numbered (n + a.length) b := by
  induction a generalizing n with
  | nil => simp [numbered]
  | cons c a ih => simp only [List.cons_append, numbered, ih, List.length_cons]; congr 3; omega

theorem numbered_length (n : Nat) (a : List CutData) : (numbered n a).length = a.length := by
  induction a generalizing n with
  | nil => rfl
  | cons c a ih => simp [numbered, ih]

theorem numbered_rows (M : Dbl) (n : Nat) (a : List CutData) :
    (numbered n a).map (asRow M) = a.map (asRow M) := by
  induction a generalizing n with
  | nil => rfl
  | cons c a ih => simp [numbered, ih, asRow]

/-- The integers `n, n+1, ..., n+k-1`. -/
def upFrom (n : Nat) : Nat → List Int
  | 0 => []
  | k + 1 => (n : Int) :: upFrom (n + 1) k

theorem upFrom_add (n k l : Nat) : upFrom n (k + l) = upFrom n k ++ upFrom (n + k) l := by
  induction k generalizing n with
  | zero => simp [upFrom]
  | succ k ih =>
    rw [show k + 1 + l = (k + l) + 1 by omega, upFrom, ih, upFrom, List.cons_append,
      show n + 1 + k = n + (k + 1) by omega]

theorem addAll_spec (cs : List CutData) (r : Runner W) :
    addAll r cs = .ok ({ r with registry :=
        { r.registry with cuts := r.registry.cuts ++ numbered r.registry.cuts.length cs } },
      upFrom r.registry.cuts.length cs.length) := by
  induction cs generalizing r with
  | nil => simp [addAll, numbered, upFrom]
  | cons c cs ih =>
    simp only [addAll, CutRegistry.addCut, CutData.getIndex, CutData.setIndex, Outcome.bind_ok,
      Outcome.pure_eq, ih, List.length_append, List.length_singleton, List.append_assoc,
      List.singleton_append, numbered, upFrom, List.length_cons, List.length_nil, Nat.zero_add]

theorem generate_spec (pl : Plugins W) (gs) (r r' : Runner W) (is : List Int)
    (h : generate pl r gs = .ok (r', is)) :
    ∃ new : List CutData,
      r'.registry = { r.registry with cuts := r.registry.cuts ++ numbered r.registry.cuts.length new } ∧
      is = upFrom r.registry.cuts.length new.length ∧
      r'.numCutrounds = r.numCutrounds ∧ r'.numCutsAdded = r.numCutsAdded ∧ r'.lpRows = r.lpRows := by
  induction gs generalizing r is with
  | nil =>
    simp only [generate, Outcome.ok.injEq, Prod.mk.injEq] at h
    obtain ⟨rfl, rfl⟩ := h
    exact ⟨[], by simp [numbered], by simp [upFrom], rfl, rfl, rfl⟩
  | cons g gs ih =>
    simp only [generate, Outcome.bind_eq_ok, Prod.exists] at h
    obtain ⟨w, cuts, -, h⟩ := h
    split at h
    · obtain ⟨new, h1, h2, h3⟩ := ih _ _ h
      exact ⟨new, h1, h2, h3⟩
    · simp only [Outcome.bind_eq_ok, Prod.exists, Outcome.pure_eq, Outcome.ok.injEq,
        Prod.mk.injEq] at h
      obtain ⟨w', filtered, -, r1, is1, ha, r2, is2, hg, rfl, rfl⟩ := h
      rw [addAll_spec] at ha
      simp only [Outcome.ok.injEq, Prod.mk.injEq] at ha
      obtain ⟨rfl, rfl⟩ := ha
      obtain ⟨new, h1, h2, h3, h4, h5⟩ := ih _ _ hg
      simp only [List.length_append, numbered_length] at h1 h2 h3 h4 h5
      refine ⟨filtered ++ new, ?_, ?_, h3, h4, h5⟩
      · rw [h1, numbered_append, List.append_assoc]
      · rw [h2, List.length_append, upFrom_add]

theorem addRows_spec (pl : Plugins W) (old new : List CutData) (r r' : Runner W)
    (hr : r.registry.cuts = old ++ new)
    (h : addRows pl r (upFrom old.length new.length) = .ok r') :
    r'.registry = r.registry ∧ r'.lpRows = r.lpRows ++ new.map (asRow pl.infinity) ∧
      r'.numCutrounds = r.numCutrounds ∧ r'.numCutsAdded = r.numCutsAdded := by
  induction new generalizing old r with
  | nil =>
    simp only [List.length_nil, upFrom, addRows, Outcome.ok.injEq] at h; subst h; simp
  | cons c cs ih =>
    have hget : r.registry.getCut (old.length : Int) = .ok c := by
      unfold CutRegistry.getCut
      rw [if_neg (by omega), hr]
      simp
    simp only [List.length_cons, upFrom, addRows, hget, Outcome.bind_ok, Outcome.bind_eq_ok] at h
    obtain ⟨w, -, h⟩ := h
    rw [show old.length + 1 = (old ++ [c]).length by simp] at h
    obtain ⟨h1, h2, h3, h4⟩ := ih (old ++ [c]) _ (by simpa using hr) h
    exact ⟨h1, by rw [h2]; simp [asRow], h3, h4⟩

/-- What one round does, whatever the plug-ins do. -/
theorem round_spec (pl : Plugins W) (r r' : Runner W) (b : Bool) (h : round pl r = .ok (r', b)) :
    ∃ new : List CutData,
      r'.registry = { r.registry with cuts := r.registry.cuts ++ numbered r.registry.cuts.length new } ∧
      r'.lpRows = r.lpRows ++ new.map (asRow pl.infinity) ∧ r'.numCutsAdded = r.numCutsAdded ∧
      (b = true → new ≠ [] ∧ r'.numCutrounds = r.numCutrounds + 1) ∧
      (b = false → new = [] ∧ r'.numCutrounds = r.numCutrounds) := by
  simp only [round, Outcome.bind_eq_ok, Prod.exists] at h
  obtain ⟨r1, is, hg, h⟩ := h
  obtain ⟨new, h1, h2, h3, h4, h5⟩ := generate_spec pl _ _ _ _ hg
  split at h
  · rename_i he
    simp only [Outcome.pure_eq, Outcome.ok.injEq, Prod.mk.injEq] at h
    obtain ⟨rfl, rfl⟩ := h
    have hnew : new = [] := by
      cases new with
      | nil => rfl
      | cons c cs => rw [h2] at he; simp [upFrom] at he
    subst hnew
    exact ⟨[], h1, by simpa using h5, h4, by simp, fun _ => ⟨rfl, h3⟩⟩
  · rename_i he
    simp only [Outcome.bind_eq_ok, Outcome.pure_eq, Outcome.ok.injEq, Prod.mk.injEq] at h
    obtain ⟨r2, hr2, w, -, rfl, rfl⟩ := h
    subst h2
    have hr1 : r1.registry.cuts = r.registry.cuts ++ numbered r.registry.cuts.length new := by
      rw [h1]
    rw [← numbered_length r.registry.cuts.length new] at hr2
    obtain ⟨g1, g2, g3, g4⟩ := addRows_spec pl _ _ _ _ hr1 hr2
    refine ⟨new, by simp only [g1, h1], ?_, by simp only [g4, h4], fun _ => ⟨?_, ?_⟩, by simp⟩
    · simp only [g2, h5, numbered_rows]
    · rintro rfl; simp [upFrom] at he
    · simp only [g3, h3]

/-- Everything about a call that returns OK: `k` rounds that added cuts, and then one that
did not, or the end by the loop condition. -/
theorem separateFuel_spec (p : RunnerParams) (pl : Plugins W) (n : Nat) (r r' : Runner W)
    (h : separateFuel p pl n r = some (.ok r')) :
    ∃ new : List CutData, ∃ k : Nat,
      r'.registry = { r.registry with cuts := r.registry.cuts ++ numbered r.registry.cuts.length new } ∧
      r'.lpRows = r.lpRows ++ new.map (asRow pl.infinity) ∧ r'.numCutsAdded = r.numCutsAdded ∧
      r'.numCutrounds = r.numCutrounds + k ∧ (k = 0 ∨ r'.numCutrounds ≤ p.maxIterations) ∧
      (mayRun p pl r = false → new = []) := by
  induction n generalizing r with
  | zero => simp [separateFuel] at h
  | succ n ih =>
    rw [separateFuel] at h
    split at h
    · rename_i hm
      have hlt : r.numCutrounds < p.maxIterations := by
        unfold mayRun at hm
        by_contra hc
        rw [if_pos (show r.numCutrounds ≥ p.maxIterations by omega)] at hm
        split at hm
        · exact Bool.noConfusion hm
        · split at hm <;> exact Bool.noConfusion hm
      split at h
      · rename_i r1 hr
        obtain ⟨new1, a1, a2, a3, a4, -⟩ := round_spec pl _ _ _ hr
        obtain ⟨new2, k, b1, b2, b3, b4, b5, -⟩ := ih _ h
        obtain ⟨-, a5⟩ := a4 rfl
        refine ⟨new1 ++ new2, k + 1, ?_, ?_, b3.trans a3, ?_, Or.inr ?_, fun hf => ?_⟩
        · rw [b1, a1]
          simp only [List.length_append, numbered_length, numbered_append, List.append_assoc]
        · rw [b2, a2]; simp
        · push_cast; omega
        · rcases b5 with rfl | b5
          · omega
          · exact b5
        · rw [hm] at hf; exact Bool.noConfusion hf
      · rename_i r1 hr
        simp only [Option.some.injEq, Outcome.ok.injEq] at h
        subst h
        obtain ⟨new1, a1, a2, a3, -, a4⟩ := round_spec pl _ _ _ hr
        obtain ⟨a5, a6⟩ := a4 rfl
        exact ⟨new1, 0, a1, a2, a3, by simpa using a6, Or.inl rfl, fun _ => a5⟩
      · simp at h
      · simp at h
      · simp at h
    · simp only [Option.some.injEq, Outcome.ok.injEq] at h
      subst h
      exact ⟨[], 0, by simp [numbered], by simp, rfl, by simp, Or.inl rfl, fun _ => rfl⟩

/-! ## C24 -/

/-- **C24**, proved part: termination.  For every behaviour of the plug-ins, the loop
condition is evaluated at most `max_iterations - num_cutrounds_ + 1` times: with that much
fuel the call ends, in whatever way. -/
theorem C24_terminates_partial (p : RunnerParams) (pl : Plugins W) (r : Runner W) :
    separateFuel p pl ((p.maxIterations - r.numCutrounds).toNat + 1) r ≠ none := by
  generalize hn : (p.maxIterations - r.numCutrounds).toNat = n
  induction n generalizing r with
  | zero =>
    have hm : mayRun p pl r = false := by
      unfold mayRun
      rw [if_pos (show r.numCutrounds ≥ p.maxIterations by omega)]
      simp
    simp [separateFuel, hm]
  | succ n ih =>
    rw [separateFuel]
    split
    · split
      · rename_i r1 hr
        obtain ⟨_, -, -, -, a4, -⟩ := round_spec pl _ _ _ hr
        exact ih r1 (by have := (a4 rfl).2; omega)
      all_goals simp
    · simp

/-- A sequence of calls of `SeparateCurrentLPSolution`, all returning OK, with arbitrary
changes of the outside world (branching, other LP solves, changed bounds) in between. -/
inductive Calls (p : RunnerParams) (pl : Plugins W) : Runner W → Runner W → Prop
  | refl (r : Runner W) : Calls p pl r r
  | step {r r' r'' : Runner W} (w : W) (n : Nat) : Calls p pl r r' →
      separateFuel p pl n { r' with world := w } = some (.ok r'') → Calls p pl r r''

/-- **C24**, proved part: the number of rounds.  Over any sequence of calls of one runner,
the total number of rounds that added cuts is at most `max_iterations` (or 0 if that is
negative); hence so is the number in each call.  Every such round adds at least one cut.
Missing (and false, see below): the limits on the number of cuts. -/
theorem C24_rounds_partial (p : RunnerParams) (pl : Plugins W) (w : W) (r : Runner W)
    (h : Calls p pl { world := w } r) :
    0 ≤ r.numCutrounds ∧ r.numCutrounds ≤ max 0 p.maxIterations := by
  generalize hs : ({ world := w } : Runner W) = s at h
  induction h with
  | refl => subst hs; simp
  | step w' n _ hsep ih =>
    obtain ⟨-, k, -, -, -, h4, h5, -⟩ := separateFuel_spec _ _ _ _ _ hsep
    have := ih
    simp only at h4
    omega

/-- **C24**, proved part: a limit of zero (for the total, or for one node), or a negative
limit per node, lets no cut be added by a fresh runner. -/
theorem C24_zero_limits_partial (p : RunnerParams) (pl : Plugins W) (w : W) (r : Runner W) (n : Nat)
    (h0 : p.maxNumCutsTotal = 0 ∨ p.maxNumCutsPerNode ≤ 0 ∨ p.maxIterations ≤ 0)
    (h : separateFuel p pl n { world := w } = some (.ok r)) :
    r.registry.cuts = [] ∧ r.lpRows = [] := by
  obtain ⟨new, k, h1, h2, -, -, -, h6⟩ := separateFuel_spec _ _ _ _ _ h
  have : new = [] := by
    apply h6
    unfold mayRun
    rcases h0 with h0 | h0 | h0
    · simp [h0, toSizeT]
    · simp [h0]
    · simp [h0]
  subst this
  simp [h1, h2, numbered]

/-- An example of plug-ins: an LP that is always solved, and a generator that delivers two
cuts each time, all of which are selected. -/
def exCut : CutData :=
  { row := ⟨[⟨0, 1⟩], false⟩, rhs := 0, numNonZeros := 1, numIntegers := 1, objectiveParallelism := .fin 0,
    name := "cut", forced := false, efficacy := .fin 0 }

def exPlugins : Plugins Unit where
  stop _ := false
  isSolved _ := true
  generators := [fun _ _ => .ok ((), [exCut, exCut])]
  select _ _ cuts := .ok ((), cuts)
  addRow _ _ := .ok ()
  solve _ := .ok ()

/-- C24 fails: with all limits on the number of cuts set to 1, one call adds 200 cuts (two
in each of 100 rounds).  The counter for the node is never incremented, no cut is ever
activated, and `max_num_cuts_at_root` is not read. -/
theorem C24_cut_limits_violated :
    ∃ (p : RunnerParams) (pl : Plugins Unit) (r : Runner Unit) (n : Nat),
      p.maxNumCutsTotal = 1 ∧ p.maxNumCutsPerNode = 1 ∧ p.maxNumCutsAtRoot = 1 ∧
      separateFuel p pl n { world := () } = some (.ok r) ∧ r.lpRows.length = 200 ∧
      r.registry.cuts.length = 200 := by
  let p : RunnerParams := { maxNumCutsTotal := 1, maxNumCutsAtRoot := 1, maxNumCutsPerNode := 1 }
  have hround : ∀ r : Runner Unit, ∃ r', round exPlugins r = .ok (r', true) ∧
      r'.lpRows.length = r.lpRows.length + 2 ∧ r'.registry.cuts.length = r.registry.cuts.length + 2 ∧
      r'.registry.activeIndices = r.registry.activeIndices ∧ r'.numCutsAdded = r.numCutsAdded ∧
      r'.numCutrounds = r.numCutrounds + 1 := by
    intro r
    have hex : ∃ r', round exPlugins r = .ok (r', true) ∧
        r'.lpRows.length = r.lpRows.length + 2 := by
      have e1 : (if ((r.registry.cuts.length : Int)) < 0 then (Outcome.ub : Outcome CutData)
        else .ok exCut) = .ok exCut := if_neg (by omega)
      simp only [round, exPlugins, generate, List.isEmpty_cons, Bool.false_eq_true, if_false,
        Outcome.bind_ok, addAll_spec, List.length_cons, List.length_nil, upFrom, List.append_nil,
        Outcome.pure_eq, addRows, CutRegistry.getCut, numbered]
      have hn : ¬ ((r.registry.cuts.length : Int)) < 0 := by omega
      have hn' : ¬ (((r.registry.cuts.length + 1 : Nat) : Int)) < 0 := by omega
      simp only [hn, hn', if_false, Int.toNat_natCast]
      simp
    obtain ⟨r', hr, hl⟩ := hex
    obtain ⟨new, h1, h2, h3, h4, -⟩ := round_spec _ _ _ _ hr
    have hnew : new.length = 2 := by
      rw [h2] at hl; simp at hl; exact hl
    exact ⟨r', hr, hl, by rw [h1]; simp [numbered_length, hnew], by rw [h1], h3, (h4 rfl).2⟩
  have key : ∀ (m : Nat) (r : Runner Unit), r.registry.activeIndices = [] → r.numCutsAdded = 0 →
      r.numCutrounds + m = 100 → ∃ r', separateFuel p exPlugins (m + 1) r = some (.ok r') ∧
        r'.lpRows.length = r.lpRows.length + 2 * m ∧
        r'.registry.cuts.length = r.registry.cuts.length + 2 * m := by
    intro m
    induction m with
    | zero =>
      intro r _ _ h
      refine ⟨r, ?_, by simp, by simp⟩
      have : mayRun p exPlugins r = false := by
        simp [mayRun, exPlugins, p]; intro _ ; omega
      simp [separateFuel, this]
    | succ m ih =>
      intro r ha hb h
      obtain ⟨r1, h1, h2, h3, h4, h5, h6⟩ := hround r
      obtain ⟨r2, g1, g2, g3⟩ := ih r1 (h4.trans ha) (h5.trans hb) (by omega)
      refine ⟨r2, ?_, by omega, by omega⟩
      have : mayRun p exPlugins r = true := by
        have e : ¬ (100 : Int) ≤ r.numCutrounds := by omega
        simp [mayRun, exPlugins, p, ha, hb, e, toSizeT]
      rw [separateFuel, if_pos this, h1]
      exact g1
  obtain ⟨r, h1, h2, h3⟩ := key 100 { world := () } rfl rfl rfl
  exact ⟨p, exPlugins, r, 101, rfl, rfl, rfl, h1, by simpa using h2, by simpa using h3⟩

/-! ## C25 -/

/-- **C25.**  After any sequence of calls that return OK, whatever the plug-ins do and
whatever happens in between, the rows handed to the LP are exactly the cuts in the
registry, in the same order, with the cut's coefficients, right-hand side and name, and no
left-hand side; and each cut's index is its position. -/
theorem C25_registry_and_lp (p : RunnerParams) (pl : Plugins W) (w : W) (r : Runner W)
    (h : Calls p pl { world := w } r) :
    r.lpRows = r.registry.cuts.map (asRow pl.infinity) ∧
    ∀ (k : Nat) (c : CutData), r.registry.cuts[k]? = some c → c.index = some (k : Int) := by
  have key : r.lpRows = r.registry.cuts.map (asRow pl.infinity) ∧
      ∃ l, r.registry.cuts = numbered 0 l := by
    generalize hs : ({ world := w } : Runner W) = s at h
    induction h with
    | refl => subst hs; simp; exact ⟨[], rfl⟩
    | step w' n _ hsep ih =>
      obtain ⟨new, k, h1, h2, -⟩ := separateFuel_spec _ _ _ _ _ hsep
      obtain ⟨h3, l, h4⟩ := ih
      simp only at h1 h2
      refine ⟨by rw [h2, h1, h3]; simp [numbered_rows], l ++ new, ?_⟩
      rw [h1, numbered_append]
      simp [h4, numbered_length]
  obtain ⟨h1, l, h2⟩ := key
  refine ⟨h1, fun k c hk => ?_⟩
  rw [h2] at hk
  have : ∀ (l : List CutData) (n k : Nat), (numbered n l)[k]? = some c → c.index = some ((n + k : Nat) : Int) := by
    intro l
    induction l with
    | nil => intro n k h; simp [numbered] at h
    | cons d l ih =>
      intro n k h
      cases k with
      | zero => simp [numbered] at h; rw [← h]; simp
      | succ k =>
        simp only [numbered, List.getElem?_cons_succ] at h
        rw [ih _ _ h]; congr 2; omega
  simpa using this l 0 k hk

/-- One call in any state: what is appended to the registry is what is appended to the LP;
nothing else changes in the registry. -/
theorem C25_one_call (p : RunnerParams) (pl : Plugins W) (n : Nat) (r r' : Runner W)
    (h : separateFuel p pl n r = some (.ok r')) :
    ∃ new : List CutData, r'.registry.cuts = r.registry.cuts ++ new ∧
      r'.lpRows = r.lpRows ++ new.map (asRow pl.infinity) ∧
      r'.registry.activeIndices = r.registry.activeIndices := by
  obtain ⟨new, k, h1, h2, -⟩ := separateFuel_spec _ _ _ _ _ h
  exact ⟨numbered r.registry.cuts.length new, by rw [h1], by rw [h2, numbered_rows], by rw [h1]⟩

/-- Non-vacuity: the call of the counterexample above, with 200 cuts. -/
example : ∃ (p : RunnerParams) (pl : Plugins Unit) (r : Runner Unit),
    Calls p pl { world := () } r ∧ r.lpRows.length = 200 := by
  obtain ⟨p, pl, r, n, -, -, -, h, h', -⟩ := C24_cut_limits_violated
  exact ⟨p, pl, r, .step () n (.refl _) h, h'⟩

end MiniMip.Runner
