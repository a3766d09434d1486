import Verif.Lemmas.SolverOpen

/-!
# The bounds under which separation is called

Whenever the loop calls the cut runner, the bounds of the LP are those of a node: they admit nothing that
the bounds of the problem do not admit, and the continuous columns have the bounds of the problem.
So an oracle may be replaced by one that only separates then.
-/

namespace MiniMip
namespace Solver

open MipTree

variable {W : Type}

/-- The bounds of the LP's columns are within those of the problem, and equal to them for continuous
columns. -/
def NodeBounds (d : MipData) (bounds : W → Int → Dbl × Dbl) (w : W) : Prop :=
  ∀ (n : Nat) (l u : Dbl), d.lower[n]? = some l → d.upper[n]? = some u →
    (∀ y, Between (bounds w n).1 y (bounds w n).2 → Between l y u) ∧
    ((n : Int) ∉ d.integerVariables → bounds w n = (l, u))

open Classical in
/-- The oracle that separates only in the states in `P`. -/
noncomputable def cautious (o : Oracle W) (P : W → Prop) : Oracle W :=
  { o with separate := fun w => if P w then o.separate w else .ok w }

theorem cautious_applyBounds (o : Oracle W) (P : W → Prop) (lb ub : List Dbl) :
    ∀ (l : List Int) (w : W), applyBounds (cautious o P) lb ub w l = applyBounds o lb ub w l := by
  intro l
  induction l with
  | nil => intro w; rfl
  | cons j r ih =>
    intro w
    unfold applyBounds
    simp only [ih]
    rfl

theorem nodeBounds_of {o : Oracle W} {d : MipData} {Good : W → Prop} {bounds : W → Int → Dbl × Dbl}
    {Answer : W → Prop} (hc : Contract o Good bounds Answer) {b : Box} {lb ub : List Dbl}
    (hbs : BoundsSpec d b lb ub) {w w' : W} (hg : Good w) (hk : ContinuousKept d bounds w)
    (hb : applyBounds o lb ub w d.integerVariables = .ok w') : Good w' ∧ NodeBounds d bounds w' := by
  obtain ⟨hg', hin, hout⟩ := applyBounds_spec hc d.integerVariables w w' hg hb
  refine ⟨hg', fun m l u hl hu => ?_⟩
  by_cases hi : (m : Int) ∈ d.integerVariables
  · obtain ⟨a, c, ha, hcc, hbd⟩ := hin m hi
    obtain ⟨n1, e1, ha⟩ := vecGet_eq_ok ha
    obtain ⟨n2, e2, hcc⟩ := vecGet_eq_ok hcc
    obtain rfl : m = n1 := by omega
    obtain rfl : m = n2 := by omega
    refine ⟨fun y hy => ?_, fun h => absurd hi h⟩
    rw [hbd] at hy
    have := (hbs.2.2 m y).1
    simp only [AboveAt, BelowAt, ha, hcc, hl, hu, Option.some.injEq, forall_eq'] at this
    obtain ⟨h1, h2, -⟩ := this ⟨hy.1, hy.2⟩
    exact ⟨h1, h2⟩
  · rw [hout m hi, hk m _ _ hi hl hu]
    exact ⟨fun _ h => h, fun _ => rfl⟩

/-- In the states the loop can be in, the cautious oracle is the given one. -/
theorem cautious_iterate {o : Oracle W} {d : MipData} {prm : Params} {Good : W → Prop}
    {bounds : W → Int → Dbl × Dbl} (hd : DataOk d) {Answer P : W → Prop}
    (hc : Contract (cautious o P) Good bounds Answer)
    (hP : ∀ w, Good w → NodeBounds d bounds w → Answer w → o.isOptimal w = true → P w)
    {s : State W} {bs : List Box} {sols : List Solution} (hinv : Inv d Good bounds s bs sols) :
    iterate (cautious o P) d prm s = iterate o d prm s := by
  obtain ⟨t, q, ht, rfl⟩ := hinv.sim
  unfold iterate
  rw [ht.queue]
  rcases pop_spec s.backjump q with ⟨h1, rfl⟩ | ⟨n, q', h1, hpop⟩
  · rw [h1]
  · rw [h1]
    simp only
    obtain ⟨-, -, -, -, lb, ub, hlb, hub, hbs⟩ := pop_node ht d hd rfl hpop
    rw [hlb, hub]
    simp only [Outcome.bind_ok]
    have hnode : solveNode (cautious o P) d lb ub s.world = solveNode o d lb ub s.world := by
      unfold solveNode
      rw [cautious_applyBounds]
      cases hb : applyBounds o lb ub s.world d.integerVariables with
      | ok w1 =>
        obtain ⟨g1, n1⟩ := nodeBounds_of hc hbs hinv.good hinv.kept
          (by rw [cautious_applyBounds]; exact hb)
        simp only [Outcome.bind_ok, show (cautious o P).solve w1 = o.solve w1 from rfl]
        cases hs : o.solve w1 with
        | ok w2 =>
          obtain ⟨g2, b2, a2⟩ := hc.solve w1 w2 g1 hs
          simp only [Outcome.orAbort, Outcome.bind_ok,
            show (cautious o P).isOptimal w2 = o.isOptimal w2 from rfl]
          split
          · rename_i hopt
            have : P w2 := hP w2 g2 (fun m l u hl hu => by rw [b2]; exact n1 m l u hl hu) a2 hopt
            rw [show (cautious o P).separate w2 = o.separate w2 from if_pos this]
          · rfl
        | _ => rfl
      | _ => rfl
    rw [hnode]
    rfl

theorem solveFuel_congr {o o' : Oracle W} {d : MipData} {prm : Params} {s₀ : State W}
    (h : ∀ s, Reach o' d prm s₀ s → iterate o' d prm s = iterate o d prm s) (fuel : Nat) :
    solveFuel o' d prm fuel s₀ = solveFuel o d prm fuel s₀ := by
  have gen : ∀ fuel s, Reach o' d prm s₀ s → solveFuel o' d prm fuel s = solveFuel o d prm fuel s := by
    intro fuel
    induction fuel with
    | zero => intro s _; rfl
    | succ n ih =>
      intro s hs
      unfold solveFuel
      rw [← h s hs]
      cases hi : iterate o' d prm s with
      | ok res =>
        cases res with
        | again s' => exact ih s' (hs.step hi)
        | stop s' => rfl
      | _ => rfl
  exact gen fuel s₀ .refl

theorem reach_congr {o o' : Oracle W} {d : MipData} {prm : Params} {s₀ : State W}
    (h : ∀ s, Reach o' d prm s₀ s → iterate o' d prm s = iterate o d prm s) {s : State W}
    (hs : Reach o d prm s₀ s) : Reach o' d prm s₀ s := by
  induction hs with
  | refl => exact .refl
  | step _ hi ih => exact ih.step (by rw [h _ ih]; exact hi)

/-- If separation of the cautious oracle keeps good states good, it runs as the given oracle does. -/
theorem cautious_runs {o : Oracle W} {d : MipData} {prm : Params} {Good : W → Prop}
    {bounds : W → Int → Dbl × Dbl} (hd : DataOk d) {Answer P : W → Prop}
    (hc : Contract (cautious o P) Good bounds Answer)
    (hk : Keeps (cautious o P) d Good)
    (hp : PrimalShape (guard (cautious o P) Good) d.lower.length)
    (hP : ∀ w, Good w → NodeBounds d bounds w → Answer w → o.isOptimal w = true → P w)
    {w : W} (hg : Good w) (hs : StartsAt d bounds w) :
    (∀ fuel, solveFuel (guard (cautious o P) Good) d prm fuel (initial w) =
      solveFuel o d prm fuel (initial w)) ∧
    ∀ s, Reach o d prm (initial w) s →
      Reach (guard (cautious o P) Good) d prm (initial w) s ∧ Good s.world := by
  have key : ∀ s, Reach (cautious o P) d prm (initial w) s →
      iterate (cautious o P) d prm s = iterate o d prm s := by
    intro s h
    obtain ⟨h1, -⟩ := guard_reach hk prm (s₀ := initial w) hg h
    obtain ⟨bs, sols, hinv, -⟩ := reach_trans hd hp hc.guard hg hs h1
    exact cautious_iterate hd hc hP hinv
  refine ⟨fun fuel => ?_, fun s h => ?_⟩
  · rw [guard_solveFuel hk prm fuel (s := initial w) hg]
    exact solveFuel_congr key fuel
  · exact guard_reach hk prm (s₀ := initial w) hg (reach_congr key h)

end Solver
end MiniMip
