import Verif.Model.GlopScaled
import Verif.Props.GlopSolve

/-!
# Property C103: the LP that is solved is the LP that is stored
-/

namespace MiniMip
namespace Glop

/-! ### The copy does not change what the interface does -/

theorem solveCopy_iface (n : Nat) (r : Bool) (h : Handle) (answers : Nat → Answer) :
    (solveCopy n r h answers).1.iface = (solveInternal n r h.iface answers).1 ∧
    (solveCopy n r h answers).2.1 = (solveInternal n r h.iface answers).2 := by
  induction n generalizing r h answers with
  | zero => exact ⟨rfl, rfl⟩
  | succ n ih =>
    have hr : h.refresh.iface = h.iface := by unfold Handle.refresh; split <;> rfl
    rw [solveCopy, solveInternal]
    cases r <;> simp only [hr, Bool.false_eq_true, if_false, if_true] <;>
      (split
       · exact ⟨by simp [hr], rfl⟩
       · split
         · rw [(ih true _ _).2]
           dsimp only
           split
           · exact ⟨(ih true _ _).1, rfl⟩
           · refine ⟨?_, rfl⟩
             dsimp only
             rw [(ih true _ _).1]
         · exact ⟨rfl, rfl⟩)

/-- **C103**, the link to the other properties of the interface: a solve that keeps the copy does to
the interface what `solveLp` does. -/
theorem C103_same_interface (h : Handle) (answers : Nat → Answer) :
    (solveCopy 2 false h answers).1.iface = (solveLp h.iface answers).1 ∧
    (solveCopy 2 false h answers).2.1 = (solveLp h.iface answers).2 :=
  solveCopy_iface 2 false h answers

/-! ### Sequences of calls -/

/-- The calls of C103.  `setScaling` is `SetLpParameters` as far as it concerns the LP. -/
inductive CopyCall where
  | modify (m : Modification)
  | solve (answers : Nat → Answer)
  | strongBranch (col : Nat) (value : ℚ) (x : BranchCallee)
  | setBasis (cols rows : List LpBasisStatus)
  | clearState
  | setScaling (on : Bool)
  | read (file : Option LinearProgram)

/-- One call: the interface afterwards and the problems handed to Glop. -/
def CopyCall.call (h : Handle) : CopyCall → Outcome (Handle × List Handed)
  | .modify m => do return ({ h with iface := ← m.call h.iface }, [])
  | .solve answers => .ok ((solveCopy 2 false h answers).1, (solveCopy 2 false h answers).2.2)
  | .strongBranch col value x => branchCopy h col value x
  | .setBasis c r => do return ({ h with iface := ← setBasisStatus h.iface c r }, [])
  | .clearState => .ok ({ h with iface := Glop.clearState h.iface }, [])
  | .setScaling on => .ok ({ h with iface := { h.iface with useScaling := on } }, [])
  | .read file => .ok ({ h with iface := (readLpFromFile h.iface file).1 }, [])

/-- One call in a history: the interface before it, the call, and the problems handed to Glop. -/
structure Step where
  before : Interface
  call : CopyCall
  handed : List Handed

/-- A sequence of calls. -/
def runCopy : Handle → List CopyCall → Outcome (Handle × List Step)
  | h, [] => .ok (h, [])
  | h, c :: r => do
    let (h', l) ← c.call h
    let (h'', s) ← runCopy h' r
    return (h'', ⟨h.iface, c, l⟩ :: s)

/-- What the caller expects of one call: a solve hands over the LP stored, with nothing replaced, at
least once; strong branching hands it over with the bounds of the column replaced; the other calls hand
over nothing. -/
def Step.Current (s : Step) : Prop :=
  match s.call with
  | .solve _ => s.handed ≠ [] ∧ ∀ p ∈ s.handed, p.lp = s.before.lp ∧ p.bounds = none
  | .strongBranch col _ _ => ∀ p ∈ s.handed, p.lp = s.before.lp ∧ ∃ b, p.bounds = some (col, b)
  | _ => s.handed = []

/-- The first problem a solve hands over is scaled exactly if the parameter is on. -/
def Step.ScaledAsSet (s : Step) : Prop :=
  match s.call with
  | .solve _ => ∃ p l, s.handed = p :: l ∧ p.scaled = s.before.useScaling
  | _ => True

/-! ### The invariant -/

theorem refresh_spec (h : Handle) (hi : h.iface.modified = false → h.source = h.iface.lp) :
    h.refresh.source = h.iface.lp ∧ h.refresh.iface = h.iface := by
  unfold Handle.refresh
  split
  · exact ⟨rfl, rfl⟩
  · next hm => exact ⟨hi (by simpa using hm), rfl⟩

theorem solveCopy_spec (h : Handle) (answers : Nat → Answer)
    (hi : h.iface.modified = false → h.source = h.iface.lp) :
    (∀ p ∈ (solveCopy 2 false h answers).2.2, p.lp = h.iface.lp ∧ p.bounds = none) ∧
    (solveCopy 2 false h answers).1.iface.lp = h.iface.lp ∧
    (solveCopy 2 false h answers).1.source = h.iface.lp ∧
    (∃ p l, (solveCopy 2 false h answers).2.2 = p :: l ∧ p.scaled = h.refresh.scaled) := by
  obtain ⟨h1, h2⟩ := refresh_spec h hi
  have hr : ∀ (g : Interface) (l : LinearProgram) (b : Bool), g.modified = true →
      Handle.refresh ⟨g, l, b⟩ = ⟨g, g.lp, g.useScaling⟩ := by
    intro g l b hg
    simp [Handle.refresh, hg]
  rw [solveCopy]
  simp only [h2, Bool.false_eq_true, if_false]
  split
  · simp [h1]
  · split
    · rw [solveCopy]
      dsimp only
      rw [hr _ _ _ rfl]
      simp only [if_true, Bool.and_false, Bool.false_and, Bool.false_eq_true, if_false]
      split <;> simp [h1]
    · simp [h1]

/-- A modification of nothing leaves the LP. -/
theorem modify_nothing {g g' : Interface} {m : Modification} (h : m.call g = .ok g')
    (hc : m.changes = false) : g' = g := by
  cases m with
  | addColumns cs =>
    cases cs with
    | nil => exact (Outcome.ok.inj h).symm
    | cons c r => simp [Modification.changes] at hc
  | addRows rs =>
    cases rs with
    | nil => exact (Outcome.ok.inj h).symm
    | cons c r => simp [Modification.changes] at hc
  | _ => simp [Modification.changes] at hc

/-- The copy is up to date unless the LP is marked. -/
def UpToDate (h : Handle) : Prop := h.iface.modified = false → h.source = h.iface.lp

theorem call_spec {h h' : Handle} {c : CopyCall} {l : List Handed} (hi : UpToDate h)
    (hc : c.call h = .ok (h', l)) (hr : ∀ f, c ≠ .read f)
    (hb : ∀ col v x, c = .strongBranch col v x → isSolved h.iface = true) :
    UpToDate h' ∧ Step.Current ⟨h.iface, c, l⟩ ∧
    (h.iface.modified = true → Step.ScaledAsSet ⟨h.iface, c, l⟩) := by
  cases c with
  | modify m =>
    obtain ⟨g1, h1, h2⟩ := Outcome.bind_eq_ok.mp hc
    have h2 := Outcome.ok.inj h2
    simp only [Prod.mk.injEq] at h2
    obtain ⟨rfl, rfl⟩ := h2
    refine ⟨?_, rfl, fun _ => trivial⟩
    intro hm
    have hm' := modify_modified h1
    cases hch : m.changes with
    | true => rw [hch, if_pos rfl] at hm'; simp only [hm'] at hm; simp at hm
    | false =>
      have := modify_nothing h1 hch
      subst this
      exact hi hm
  | solve answers =>
    have hc := Outcome.ok.inj hc
    simp only [Prod.mk.injEq] at hc
    obtain ⟨rfl, rfl⟩ := hc
    obtain ⟨s1, s2, s3, p, t, s4, s5⟩ := solveCopy_spec h answers hi
    refine ⟨fun _ => by rw [s3, s2], ⟨by rw [s4]; simp, s1⟩, fun hm => ⟨p, t, s4, ?_⟩⟩
    rw [s5]
    simp [Handle.refresh, hm]
  | strongBranch col v x =>
    have hm : h.iface.modified = false := by simpa [isSolved] using hb col v x rfl
    simp only [CopyCall.call, branchCopy] at hc
    split at hc
    · simp at hc
    · have hc := Outcome.ok.inj hc
      simp only [Prod.mk.injEq] at hc
      obtain ⟨rfl, rfl⟩ := hc
      refine ⟨fun _ => hi hm, ?_, fun _ => trivial⟩
      intro p hp
      obtain ⟨b, -, rfl⟩ := List.mem_map.mp hp
      exact ⟨hi hm, b, rfl⟩
  | setBasis c r =>
    obtain ⟨g1, h1, h2⟩ := Outcome.bind_eq_ok.mp hc
    have h2 := Outcome.ok.inj h2
    simp only [Prod.mk.injEq] at h2
    obtain ⟨rfl, rfl⟩ := h2
    unfold setBasisStatus at h1
    obtain ⟨cs, -, h1⟩ := Outcome.bind_eq_ok.mp h1
    obtain ⟨rs, -, h1⟩ := Outcome.bind_eq_ok.mp h1
    have h1 := Outcome.ok.inj h1
    subst h1
    exact ⟨hi, rfl, fun _ => trivial⟩
  | clearState =>
    have hc := Outcome.ok.inj hc
    simp only [Prod.mk.injEq] at hc
    obtain ⟨rfl, rfl⟩ := hc
    exact ⟨hi, rfl, fun _ => trivial⟩
  | setScaling on =>
    have hc := Outcome.ok.inj hc
    simp only [Prod.mk.injEq] at hc
    obtain ⟨rfl, rfl⟩ := hc
    exact ⟨hi, rfl, fun _ => trivial⟩
  | read f => exact absurd rfl (hr f)

/-- **C103**, partial: what is missing are reads from a file (`C103_read_violated`), strong branching on
an LP modified since the last solve (`C103_strong_branching_violated`), and the scaling of an LP solved
again without a modification (`C103_scaling_violated`).  In every history of calls on a new interface
without reads, every solve hands Glop exactly the LP the interface stores at that moment, also a solve
that fails, that follows one that failed, or that solves a second time without scaling; strong branching
on a solved LP hands over that LP with only the bounds of the column replaced; a solve of a modified LP
first hands it over scaled exactly if the parameter is on. -/
theorem C103_solves_the_stored_lp_partial {h : Handle} {cs : List CopyCall} {steps : List Step}
    (hrun : runCopy {} cs = .ok (h, steps)) (hr : ∀ c ∈ cs, ∀ f, c ≠ .read f) :
    ∀ s ∈ steps,
      ((∃ col v x, s.call = .strongBranch col v x) → isSolved s.before = true → s.Current) ∧
      ((∀ col v x, s.call ≠ .strongBranch col v x) → s.Current) ∧
      (isSolved s.before = false → s.ScaledAsSet) := by
  have main : ∀ (cs : List CopyCall) (h₀ : Handle) (h : Handle) (steps : List Step), UpToDate h₀ →
      runCopy h₀ cs = .ok (h, steps) → (∀ c ∈ cs, ∀ f, c ≠ .read f) → ∀ s ∈ steps,
      ((∃ col v x, s.call = .strongBranch col v x) → isSolved s.before = true → s.Current) ∧
      ((∀ col v x, s.call ≠ .strongBranch col v x) → s.Current) ∧
      (isSolved s.before = false → s.ScaledAsSet) := by
    intro cs
    induction cs with
    | nil =>
      intro h₀ h steps _ hrun _ s hs
      have hrun := Outcome.ok.inj hrun
      simp only [Prod.mk.injEq] at hrun
      rw [← hrun.2] at hs
      simp at hs
    | cons c r ih =>
      intro h₀ h steps hi hrun hr s hs
      obtain ⟨⟨h1, l⟩, e1, hrun⟩ := Outcome.bind_eq_ok.mp hrun
      obtain ⟨⟨h2, t⟩, e2, hrun⟩ := Outcome.bind_eq_ok.mp hrun
      have hrun := Outcome.ok.inj hrun
      simp only [Prod.mk.injEq] at hrun
      obtain ⟨rfl, rfl⟩ := hrun
      have hn := hr c (by simp)
      have hup : UpToDate h1 := by
        by_cases hb : ∃ col v x, c = .strongBranch col v x
        · obtain ⟨col, v, x, rfl⟩ := hb
          simp only [CopyCall.call, branchCopy] at e1
          split at e1
          · simp at e1
          · have e1 := Outcome.ok.inj e1
            simp only [Prod.mk.injEq] at e1
            obtain ⟨rfl, -⟩ := e1
            exact hi
        · exact (call_spec hi e1 hn fun col v x hc => absurd ⟨col, v, x, hc⟩ hb).1
      rcases List.mem_cons.mp hs with rfl | hs
      · refine ⟨fun _ hsol => ?_, fun hb => ?_, fun hm => ?_⟩
        · exact (call_spec hi e1 hn fun _ _ _ _ => hsol).2.1
        · exact (call_spec hi e1 hn fun col v x hc => absurd hc (hb col v x)).2.1
        · by_cases hb : ∃ col v x, c = .strongBranch col v x
          · obtain ⟨col, v, x, rfl⟩ := hb
            trivial
          · refine (call_spec hi e1 hn fun col v x hc => absurd ⟨col, v, x, hc⟩ hb).2.2 ?_
            simpa [isSolved] using hm
      · exact ih h1 _ _ hup e2 (fun c hc => hr c (by simp [hc])) s hs
  exact main cs {} h steps (fun hm => by simp at hm) hrun hr

/-- The LP the calls describe: only the modifications count. -/
def described : LpSpec → List CopyCall → LpSpec
  | s, [] => s
  | s, .modify m :: r => described (m.effect s) r
  | s, _ :: r => described s r

/-- Every modification is valid when it is made. -/
def ValidCalls : LpSpec → List CopyCall → Prop
  | _, [] => True
  | s, .modify m :: r => m.Valid s ∧ ValidCalls (m.effect s) r
  | s, _ :: r => ValidCalls s r

/-- **C103**, partial (no reads from files): after any valid modifications, with any solves, failed
solves, strong branching and changes of the basis or the scaling in between, a solve hands Glop the LP
that the modifications describe (the specification of C44). -/
theorem C103_solves_the_described_lp_partial {h : Handle} {cs : List CopyCall} {steps : List Step}
    (hrun : runCopy {} cs = .ok (h, steps)) (hr : ∀ c ∈ cs, ∀ f, c ≠ .read f)
    (hv : ValidCalls LpSpec.empty cs) (answers : Nat → Answer) :
    (solveCopy 2 false h answers).2.2 ≠ [] ∧
    ∀ p ∈ (solveCopy 2 false h answers).2.2, Refines p.lp (described LpSpec.empty cs) ∧
      p.bounds = none := by
  have main : ∀ (cs : List CopyCall) (h₀ h : Handle) (steps : List Step) (s : LpSpec),
      UpToDate h₀ → Refines h₀.iface.lp s → runCopy h₀ cs = .ok (h, steps) →
      (∀ c ∈ cs, ∀ f, c ≠ .read f) → ValidCalls s cs →
      UpToDate h ∧ Refines h.iface.lp (described s cs) := by
    intro cs
    induction cs with
    | nil =>
      intro h₀ h steps s hi hs hrun _ _
      have hrun := Outcome.ok.inj hrun
      simp only [Prod.mk.injEq] at hrun
      obtain ⟨rfl, -⟩ := hrun
      exact ⟨hi, hs⟩
    | cons c r ih =>
      intro h₀ h steps s hi hs hrun hr hv
      obtain ⟨⟨h1, l⟩, e1, hrun⟩ := Outcome.bind_eq_ok.mp hrun
      obtain ⟨⟨h2, t⟩, e2, hrun⟩ := Outcome.bind_eq_ok.mp hrun
      have hrun := Outcome.ok.inj hrun
      simp only [Prod.mk.injEq] at hrun
      obtain ⟨rfl, -⟩ := hrun
      have hn := hr c (by simp)
      have hr' : ∀ c ∈ r, ∀ f, c ≠ .read f := fun c hc => hr c (by simp [hc])
      cases c with
      | modify m =>
        obtain ⟨g', hg, hg'⟩ := refines_step hs hv.1
        have hup := (call_spec hi e1 hn (fun _ _ _ hc => by simp at hc)).1
        simp only [CopyCall.call, hg, Outcome.bind_ok, Outcome.pure_eq, Outcome.ok.injEq,
          Prod.mk.injEq] at e1
        obtain ⟨rfl, -⟩ := e1
        exact ih _ _ _ _ hup hg' e2 hr' hv.2
      | solve answers =>
        have hup := (call_spec hi e1 hn (fun _ _ _ hc => by simp at hc)).1
        have e1 := Outcome.ok.inj e1
        simp only [Prod.mk.injEq] at e1
        obtain ⟨rfl, -⟩ := e1
        exact ih _ _ _ s hup (by rw [(solveCopy_spec h₀ answers hi).2.1]; exact hs) e2 hr' hv
      | strongBranch col v x =>
        simp only [CopyCall.call, branchCopy] at e1
        split at e1
        · simp at e1
        · have e1 := Outcome.ok.inj e1
          simp only [Prod.mk.injEq] at e1
          obtain ⟨rfl, -⟩ := e1
          refine ih _ _ _ s ?_ ?_ e2 hr' hv <;> assumption
      | setBasis c r =>
        have hup := (call_spec hi e1 hn (fun _ _ _ hc => by simp at hc)).1
        obtain ⟨g1, k1, k2⟩ := Outcome.bind_eq_ok.mp e1
        have k2 := Outcome.ok.inj k2
        simp only [Prod.mk.injEq] at k2
        obtain ⟨rfl, -⟩ := k2
        unfold setBasisStatus at k1
        obtain ⟨cs, -, k1⟩ := Outcome.bind_eq_ok.mp k1
        obtain ⟨rs, -, k1⟩ := Outcome.bind_eq_ok.mp k1
        have k1 := Outcome.ok.inj k1
        subst k1
        exact ih _ _ _ s hup hs e2 hr' hv
      | clearState =>
        have e1 := Outcome.ok.inj e1
        simp only [Prod.mk.injEq] at e1
        obtain ⟨rfl, -⟩ := e1
        refine ih _ _ _ s ?_ ?_ e2 hr' hv <;> assumption
      | setScaling on =>
        have e1 := Outcome.ok.inj e1
        simp only [Prod.mk.injEq] at e1
        obtain ⟨rfl, -⟩ := e1
        refine ih _ _ _ s ?_ ?_ e2 hr' hv <;> assumption
      | read f => exact absurd rfl (hn f)
  obtain ⟨hi, hs⟩ := main cs {} h steps LpSpec.empty (fun hm => by simp at hm) Refines.init hrun hr hv
  obtain ⟨s1, -, -, p, l, s4, -⟩ := solveCopy_spec h answers hi
  refine ⟨by rw [s4]; simp, fun p hp => ?_⟩
  rw [(s1 p hp).1]
  exact ⟨hs, (s1 p hp).2⟩

example : ValidCalls LpSpec.empty [.modify (.addColumn ⟨⟨[], false⟩, .fin 0, .fin 1, 1, "x"⟩),
    .solve fun _ => ⟨false, false, false, false, 0, []⟩,
    .modify (.setColumnBounds 0 (.fin 0) (.fin 5)), .clearState] := by
  refine ⟨⟨⟨List.Pairwise.nil, by simp⟩, by simp⟩, ⟨by simp, ?_⟩, trivial⟩
  decide

/-! ### A history, and the calls for which the property fails -/

/-- A column with the bounds 0 and `u`. -/
def boundedColumn (u : ℚ) : NewColumn := ⟨⟨[], false⟩, .fin 0, .fin u, 1, "x"⟩
/-- The LP with one column with the bounds 0 and `u`. -/
def boundedLp (u : ℚ) : LinearProgram := { cols := [⟨.fin 0, .fin u, 1, "x", []⟩] }
/-- Strong branching without scaling, where both branches are infeasible. -/
def infeasibleBranches : BranchCallee where
  scale := id
  factor := 1
  eps := 1 / 10 ^ 8
  limit := .pinf
  down := some (1, .pinf, true)
  up := some (1, .pinf, true)
  statuses := [.atLower]

/-- A solve that first fails and then needs a second solve without scaling, and strong branching at
1/2. -/
example : ∃ h steps, runCopy {} [.modify (.addColumn (boundedColumn 1)), .solve fun _ => failure,
    .solve fun k => if k = 0 then imprecise else goodAnswer,
    .strongBranch 0 (1 / 2) infeasibleBranches] = .ok (h, steps) ∧
    steps.map Step.handed = [[], [⟨boundedLp 1, true, none⟩],
      [⟨boundedLp 1, true, none⟩, ⟨boundedLp 1, false, none⟩],
      [⟨boundedLp 1, false, some (0, .fin 0, .fin 0)⟩,
       ⟨boundedLp 1, false, some (0, .fin 1, .fin 1)⟩]] :=
  ⟨_, _, rfl, by decide +kernel⟩

/-- **C103** is violated by `ReadLpFromFile`: it does not mark the LP as modified.  After a solve and a
successful read of any other LP the interface stores the LP of the file, but the next solve hands the
old LP to Glop (and returns OK). -/
theorem C103_read_violated (lp : LinearProgram) (hlp : lp ≠ {}) :
    ∃ h a b c, runCopy {} [.solve fun _ => goodAnswer, .read (some lp), .solve fun _ => goodAnswer] =
      .ok (h, [a, b, c]) ∧ c.before.lp = lp ∧ h.iface.lp = lp ∧ isSolved h.iface = true ∧
      c.handed = [⟨{}, true, none⟩] ∧ ¬ c.Current := by
  refine ⟨_, _, _, _, rfl, rfl, rfl, rfl, rfl, ?_⟩
  intro hc
  exact hlp (hc.2 ⟨{}, true, none⟩ (List.mem_singleton.mpr rfl)).1.symm

/-- **C103** is violated by strong branching after a modification: the copy is not refreshed.  Here the
upper bound of the column was raised from 1 to 5 after the solve, and strong branching at 5/2 looks at
the old bounds: it declares the up branch `x ≥ 3` empty without solving anything; on a column added
after the solve it reads out of range. -/
theorem C103_strong_branching_violated :
    (∃ h a b c d, runCopy {} [.modify (.addColumn (boundedColumn 1)), .solve fun _ => goodAnswer,
        .modify (.setColumnBounds 0 (.fin 0) (.fin 5)), .strongBranch 0 (5 / 2) infeasibleBranches] =
      .ok (h, [a, b, c, d]) ∧ d.before.lp = boundedLp 5 ∧
      d.handed = [⟨boundedLp 1, true, some (0, .fin 0, .fin 2)⟩] ∧ ¬ d.Current) ∧
    runCopy {} [.solve fun _ => goodAnswer, .modify (.addColumn (boundedColumn 1)),
        .strongBranch 0 (1 / 2) infeasibleBranches] = .ub := by
  refine ⟨⟨_, _, _, _, _, rfl, by decide +kernel, by decide +kernel, ?_⟩, rfl⟩
  intro hc
  have hc := (hc ⟨boundedLp 1, true, some (0, .fin 0, .fin 2)⟩ (by decide +kernel)).1
  revert hc
  decide +kernel

/-- **C103** is violated by the scaling parameter when the LP is not modified in between: a solve after
the parameter was turned off still hands over the scaled copy (and no longer checks the solution against
the LP stored), and a solve after one that had to be repeated without scaling hands over the unscaled
copy although the parameter is on. -/
theorem C103_scaling_violated :
    (∃ h a b c d, runCopy {} [.modify (.addColumn (boundedColumn 1)), .solve fun _ => goodAnswer,
        .setScaling false, .solve fun _ => imprecise] = .ok (h, [a, b, c, d]) ∧
      d.before.useScaling = false ∧ d.handed = [⟨boundedLp 1, true, none⟩] ∧ ¬ d.ScaledAsSet) ∧
    (∃ h a b c, runCopy {} [.modify (.addColumn (boundedColumn 1)),
        .solve fun k => if k = 0 then imprecise else goodAnswer, .solve fun _ => goodAnswer] =
      .ok (h, [a, b, c]) ∧
      c.before.useScaling = true ∧ c.handed = [⟨boundedLp 1, false, none⟩] ∧ ¬ c.ScaledAsSet) := by
  refine ⟨⟨_, _, _, _, _, rfl, rfl, by decide +kernel, ?_⟩,
    ⟨_, _, _, _, rfl, rfl, by decide +kernel, ?_⟩⟩
  · rintro ⟨p, l, hp, hs⟩
    obtain ⟨rfl, -⟩ := List.cons.inj hp
    exact absurd hs (by decide +kernel)
  · rintro ⟨p, l, hp, hs⟩
    obtain ⟨rfl, -⟩ := List.cons.inj hp
    exact absurd hs (by decide +kernel)

end Glop
end MiniMip
