import Verif.Props.Setup

/-!
# Property C102: the factories of the plug-ins

`CreateCutGenerator`, `CreateCutSelector`, `CreateCutRunner` and `CreateBranchingRule` called with any message.
-/

namespace MiniMip
namespace Setup

/-- The selector a message describes, if it describes one: the values set and the documented defaults otherwise. -/
structure DescribesSelector (m : SelectorMsg) (p : HybridParams) : Prop where
  chosen : m.hybrid.isSome = true
  efficacyWeight : Wins (m.hybrid.bind (·.efficacyWeight)) 1 p.efficacyWeight
  objectiveParallelismWeight : Wins (m.hybrid.bind (·.objectiveParallelismWeight)) (1 / 10) p.objectiveParallelismWeight
  integerSupportWeight : Wins (m.hybrid.bind (·.integerSupportWeight)) (1 / 10) p.integerSupportWeight
  minimumOrthogonality : Wins (m.hybrid.bind (·.minimumOrthogonality)) (9 / 10) p.minimumOrthogonality
  minimumOrthogonalityAtRoot :
    Wins (m.hybrid.bind (·.minimumOrthogonalityAtRoot)) (9 / 10) p.minimumOrthogonalityAtRoot
  signedOrthogonality : Wins (m.hybrid.bind (·.signedOrthogonality)) false p.signedOrthogonality
  scoreThreshold : Wins (m.hybrid.bind (·.scoreThreshold)) (1 / 1000000) p.scoreThreshold
  maximumTreeDepth : Wins (m.hybrid.bind (·.maximumTreeDepth)) (-1) p.maximumTreeDepth
  maxNumCuts : Wins (m.hybrid.bind (·.maxNumCuts)) (-1) p.maxNumCuts

/-- The rule a message describes, if it describes one. -/
inductive DescribesRule : BranchingMsg → RuleConfig → Prop where
  | random (s : Option Int) (d : Option Direction) (seed : Int) (dir : Direction) (h1 : Wins s 0 seed)
    (h2 : Wins d .unspecified dir) : DescribesRule ⟨some (.random s), d⟩ (.random seed dir)
  | maxFractional (d : Option Direction) (dir : Direction) (h2 : Wins d .unspecified dir) :
    DescribesRule ⟨some .maxFractional, d⟩ (.maxFractional dir)

/-- The limits of the runner. -/
structure DescribesRunner (m : DefaultRunnerMsg) (p : RunnerParams) : Prop where
  maxIterations : Wins m.maxIterations 100 p.maxIterations
  maxNumCutsTotal : Wins m.maxNumCutsTotal 100 p.maxNumCutsTotal
  maxNumCutsAtRoot : Wins m.maxNumCutsAtRoot 100 p.maxNumCutsAtRoot
  maxNumCutsPerNode : Wins m.maxNumCutsPerNode 100 p.maxNumCutsPerNode

/-- A factory: it returns what the message describes, and an error status if the message describes nothing. -/
def Makes {M C : Type} (describes : M → C → Prop) (chosen : M → Bool) (make : M → Outcome C) : Prop :=
  ∀ m, (chosen m = true → ∃ c, make m = .ok c ∧ describes m c) ∧ (chosen m = false → ∃ e, make m = .error e)

theorem createSelector_spec (h : HybridMsg) : DescribesSelector ⟨some h⟩ h.read :=
  ⟨rfl, wins_getD _ _, wins_getD _ _, wins_getD _ _, wins_getD _ _, wins_getD _ _, wins_getD _ _, wins_getD _ _,
    wins_getD _ _, wins_getD _ _⟩

/-- **C102**, partial: the factories of generators, selectors and branching rules return what the message describes, with
the documented defaults, or an error status.  The factory of runners does so for messages with a selector whose first one
is described, and returns an error status if no runner is chosen; generators without description are left out, the others
are there in the given order.  `Create` always gives it such a message.  Missing: messages for the runner without
selector (`C102_runner_violated`). -/
theorem C102_factories_partial :
    Makes Describes (·.tableau.isSome) createGenerator ∧
    Makes DescribesSelector (·.hybrid.isSome) createSelector ∧
    Makes DescribesRule (·.rule.isSome) createBranchingRule ∧
    (∀ m : RunnerMsg, m.defaultRunner = none → ∃ e, createRunner m = .error e) ∧
    (∀ (m : RunnerMsg) (d : DefaultRunnerMsg) (s : SelectorMsg), m.defaultRunner = some d → m.selectors.head? = some s →
      s.hybrid.isSome = true → ∃ c, createRunner m = .ok c ∧ DescribesRunner d c.params ∧
        DescribesSelector s c.selector ∧ List.Forall₂ Describes (m.generators.filter (·.tableau.isSome)) c.generators) ∧
    ∀ user : ParamsMsg, (∃ c, createRunner ((userCustomized user).cutRunner.getD {}) = .ok c) ∧
      ∃ c, createBranchingRule ((userCustomized user).branching.getD {}) = .ok c := by
  refine ⟨?_, ?_, ?_, ?_, ?_, fun user => ⟨⟨_, createRunner_ok user⟩, _, createRule_ok user⟩⟩
  · rintro ⟨n, _ | t⟩
    · exact ⟨by simp, fun _ => ⟨_, rfl⟩⟩
    · exact ⟨fun _ => ⟨_, rfl, .tableau _ _ _ (wins_getD _ _) (wins_getD _ _) (wins_getD _ _)⟩, by simp⟩
  · rintro ⟨_ | h⟩
    · exact ⟨by simp, fun _ => ⟨_, rfl⟩⟩
    · exact ⟨fun _ => ⟨_, rfl, createSelector_spec h⟩, by simp⟩
  · rintro ⟨_ | r | _, d⟩
    · exact ⟨by simp, fun _ => ⟨_, rfl⟩⟩
    · exact ⟨fun _ => ⟨_, rfl, .random _ _ _ _ (wins_getD _ _) (wins_getD _ _)⟩, by simp⟩
    · exact ⟨fun _ => ⟨_, rfl, .maxFractional _ _ (wins_getD _ _)⟩, by simp⟩
  · intro m hm
    exact ⟨_, by rw [createRunner, hm]⟩
  · rintro ⟨g, _ | ⟨⟨_ | h⟩, r⟩, d⟩ d' s hd hs hh
    · cases hs
    · cases Option.some.inj hs
      cases hh
    · cases Option.some.inj hs
      cases hd
      exact ⟨_, rfl, ⟨wins_getD _ _, wins_getD _ _, wins_getD _ _, wins_getD _ _⟩, createSelector_spec h,
        createGenerators_spec g⟩

/-- **C102** is violated by the factory of runners: for a message without selector it reads the first element of an empty
list, and if the first selector is not described the process ends. -/
theorem C102_runner_violated (g : List GeneratorMsg) (r : List SelectorMsg) (d : DefaultRunnerMsg) :
    createRunner ⟨g, [], some d⟩ = .ub ∧ createRunner ⟨g, ⟨none⟩ :: r, some d⟩ = .abort :=
  ⟨rfl, rfl⟩

/-- A message with a generator without description between two others. -/
example : ∃ c, createRunner ⟨[⟨some 5, some {}⟩, ⟨some 6, none⟩, ⟨none, some { useMir := some false }⟩], [⟨some {}⟩],
    some { maxIterations := some 3 }⟩ = .ok c ∧ c.generators = [⟨5, true, true⟩, ⟨100, false, true⟩] ∧
      c.params.maxIterations = 3 :=
  ⟨_, rfl, rfl, rfl⟩

end Setup
end MiniMip
