import Verif.Props.DebugCreate
import Verif.Props.SolverAgain

/-!
# C120: `Solve` in the debug build
-/

namespace MiniMip

open Glop (LinearProgram)

/-! ### The tree of a run -/

namespace MipTree

/-- Nodes as `Solve` makes them: branching at a finite value, no implied bounds. -/
def Simple (t : MipTree) : Prop :=
  ∀ d ∈ t.nodes, (∃ q, d.branchValue = .fin q) ∧ d.impliedLower = [] ∧ d.impliedUpper = []

theorem simple_init : init.Simple := by
  intro d hd
  simp [init] at hd
  rcases hd with rfl | rfl <;> exact ⟨⟨0, rfl⟩, rfl, rfl⟩

theorem mem_vecGet {α : Type} {l : List α} {i : Int} {x : α} (h : vecGet l i = .ok x) : x ∈ l := by
  unfold vecGet at h
  split at h
  · split at h
    · cases h
      rename_i hx
      exact List.mem_of_getElem? hx
    · cases h
  · cases h

theorem mem_vecSet {α : Type} {l l' : List α} {i : Int} {x y : α} (h : vecSet l i x = .ok l') (hy : y ∈ l') :
    y ∈ l ∨ y = x := by
  unfold vecSet at h
  split at h
  · cases h
    exact List.mem_or_eq_of_mem_set hy
  · cases h

theorem mem_checkedNode {t : MipTree} {n : Int} {d : NodeData} (h : t.checkedNode n = .ok d) : d ∈ t.nodes := by
  simp only [checkedNode, Outcome.bind_eq_ok] at h
  obtain ⟨-, -, -, -, x, hx, -, -, h⟩ := h
  cases h
  exact mem_vecGet hx

theorem Simple.grow {t : MipTree} (h : t.Simple) : t.grow.Simple := by
  unfold MipTree.grow
  split
  · intro d hd
    simp only [List.mem_append, List.mem_singleton] at hd
    rcases hd with hd | rfl
    · exact h d hd
    · exact ⟨⟨0, rfl⟩, rfl, rfl⟩
  · exact h

theorem Simple.addNode {t t' : MipTree} (h : t.Simple) {p v n : Int} {down : Bool} {q : ℚ}
    (ht : t.addNode p v down (.fin q) = .ok (t', n)) : t'.Simple := by
  simp only [MipTree.addNode, Outcome.bind_eq_ok] at ht
  obtain ⟨_, _, slot, hslot, _, _, ns, hns, _, _, cur, hcur, ns', hns', _, _, _, _, _, _, _, _, _, _, ht⟩ := ht
  cases ht
  have hg := h.grow
  have h1 : ∀ d ∈ ns, (∃ q, d.branchValue = .fin q) ∧ d.impliedLower = [] ∧ d.impliedUpper = [] := by
    intro d hd
    rcases mem_vecSet hns hd with hd | rfl
    · exact hg d hd
    · exact ⟨⟨q, rfl⟩, (hg _ (mem_vecGet hslot)).2⟩
  intro d hd
  rcases mem_vecSet hns' hd with hd | rfl
  · exact h1 d hd
  · have h2 := h1 cur (mem_vecGet hcur)
    exact h2

theorem Simple.reclaim (fuel : Nat) : ∀ {t t' : MipTree} {n : Int}, t.Simple → reclaim fuel t n = .ok t' → t'.Simple := by
  induction fuel with
  | zero => intro t t' n _ h; cases h
  | succ fuel ih =>
    intro t t' n h ht
    simp only [MipTree.reclaim, Outcome.bind_eq_ok] at ht
    obtain ⟨c, -, ht⟩ := ht
    split at ht
    · cases ht; exact h
    · simp only [Outcome.bind_eq_ok] at ht
      obtain ⟨d, _, ns, hns, ht⟩ := ht
      have h1 : ∀ oc, (⟨ns, oc, n, t.numClosed + 1⟩ : MipTree).Simple := by
        intro oc x hx
        rcases mem_vecSet hns hx with hx | rfl
        · exact h x hx
        · exact ⟨⟨0, rfl⟩, rfl, rfl⟩
      by_cases hp : d.parent = -1
      · rw [if_neg (by simpa using hp)] at ht
        simp only [Outcome.bind_eq_ok, if_pos hp] at ht
        obtain ⟨oc, _, ht⟩ := ht
        cases ht; exact h1 _
      · rw [if_pos hp] at ht
        simp only [Outcome.bind_eq_ok, if_neg hp] at ht
        obtain ⟨_, _, oc, _, ht⟩ := ht
        exact ih (h1 _) ht

theorem Simple.close {t t' : MipTree} (h : t.Simple) {n : Int} (ht : t.close n = .ok t') : t'.Simple := by
  simp only [MipTree.close, Outcome.bind_eq_ok] at ht
  obtain ⟨-, -, -, -, -, -, -, -, -, -, -, -, ht⟩ := ht
  exact h.reclaim _ ht

theorem Simple.setLpData {t t' : MipTree} (h : t.Simple) {n : Int} {o : Dbl} (ht : t.setLpData n o = .ok t') : t'.Simple := by
  simp only [MipTree.setLpData, Outcome.bind_eq_ok] at ht
  obtain ⟨d, hd, -, -, -, -, ns, hns, ht⟩ := ht
  cases ht
  intro x hx
  rcases mem_vecSet hns hx with hx | rfl
  · exact h x hx
  · exact h d (mem_checkedNode hd)

/-- `max` with a finite number yields no `+∞` that was not there. -/
theorem max_ne {a : Dbl} {q : ℚ} (h : a ≠ .pinf) : Dbl.max a (.fin q) ≠ .pinf := by
  unfold Dbl.max; split
  · simp
  · exact h

theorem min_ne {a : Dbl} {q : ℚ} (h : a ≠ .ninf) : Dbl.min a (.fin q) ≠ .ninf := by
  unfold Dbl.min; split
  · simp
  · exact h

theorem vecGet_vecSet {α : Type} {P : α → Prop} {l l' : List α} {i j : Int} {x y : α} (h : vecSet l i x = .ok l') (hx : vecGet l i = .ok y)
    (hP : P y → P x) (hl : ∀ z, vecGet l j = .ok z → P z) : ∀ z, vecGet l' j = .ok z → P z := by
  intro z hz
  obtain ⟨n, rfl, hlen, rfl⟩ := Solver.vecSet_eq_ok h
  obtain ⟨m, rfl, hz'⟩ := Solver.vecGet_eq_ok hz
  clear hz
  rename' hz' => hz
  rw [List.getElem?_set] at hz
  split at hz
  · rename_i hnm
    subst hnm
    cases hz
    exact hP (hl y hx)
  · exact hl z (vecGet_some hz)

theorem walkLower_ne (fuel : Nat) : ∀ {t : MipTree} (_ : t.Simple) {n : Int} {b b' : List Dbl}, walkLower fuel t n b = .ok b' →
    ∀ j, (∀ z, vecGet b j = .ok z → z ≠ .pinf) → ∀ z, vecGet b' j = .ok z → z ≠ .pinf := by
  induction fuel with
  | zero =>
    intro t _ n b b' h j hj
    unfold walkLower at h
    split at h
    · cases h; exact hj
    · cases h
  | succ fuel ih =>
    intro t ht n b b' h j hj
    unfold walkLower at h
    split at h
    · cases h; exact hj
    · simp only [Outcome.bind_eq_ok] at h
      obtain ⟨d, hd, b1, h1, b2, h2, h⟩ := h
      obtain ⟨⟨q, hq⟩, hl, -⟩ := ht d (mem_vecGet hd)
      rw [hl] at h1
      cases h1
      refine ih ht h j ?_
      unfold branchLower at h2
      split at h2
      · simp only [Outcome.bind_eq_ok] at h2
        obtain ⟨old, ho, h2⟩ := h2
        rw [hq] at h2
        exact vecGet_vecSet h2 ho max_ne hj
      · cases h2; exact hj

theorem walkUpper_ne (fuel : Nat) : ∀ {t : MipTree} (_ : t.Simple) {n : Int} {b b' : List Dbl}, walkUpper fuel t n b = .ok b' →
    ∀ j, (∀ z, vecGet b j = .ok z → z ≠ .ninf) → ∀ z, vecGet b' j = .ok z → z ≠ .ninf := by
  induction fuel with
  | zero =>
    intro t _ n b b' h j hj
    unfold walkUpper at h
    split at h
    · cases h; exact hj
    · cases h
  | succ fuel ih =>
    intro t ht n b b' h j hj
    unfold walkUpper at h
    split at h
    · cases h; exact hj
    · simp only [Outcome.bind_eq_ok] at h
      obtain ⟨d, hd, b1, h1, b2, h2, h⟩ := h
      obtain ⟨⟨q, hq⟩, -, hl⟩ := ht d (mem_vecGet hd)
      rw [hl] at h1
      cases h1
      refine ih ht h j ?_
      unfold branchUpper at h2
      split at h2
      · simp only [Outcome.bind_eq_ok] at h2
        obtain ⟨old, ho, h2⟩ := h2
        rw [hq] at h2
        exact vecGet_vecSet h2 ho min_ne hj
      · cases h2; exact hj

theorem retrieveLower_ne {t : MipTree} (ht : t.Simple) {n : Int} {b b' : List Dbl} (h : t.retrieveLower n b = .ok b') (j : Int)
    (hj : ∀ z, vecGet b j = .ok z → z ≠ .pinf) : ∀ z, vecGet b' j = .ok z → z ≠ .pinf := by
  simp only [retrieveLower, Outcome.bind_eq_ok] at h
  obtain ⟨-, -, h⟩ := h
  exact walkLower_ne _ ht h j hj

theorem retrieveUpper_ne {t : MipTree} (ht : t.Simple) {n : Int} {b b' : List Dbl} (h : t.retrieveUpper n b = .ok b') (j : Int)
    (hj : ∀ z, vecGet b j = .ok z → z ≠ .ninf) : ∀ z, vecGet b' j = .ok z → z ≠ .ninf := by
  simp only [retrieveUpper, Outcome.bind_eq_ok] at h
  obtain ⟨-, -, h⟩ := h
  exact walkUpper_ne _ ht h j hj

end MipTree

/-! ### The loop -/

namespace Solver
variable {W : Type}

/-- The first oracle answers like the second where `Solve` asks it. -/
structure SameAnswers (o' o : Oracle W) (d : MipData) (G : W → Prop) : Prop where
  setBounds : ∀ w, G w → ∀ j ∈ d.integerVariables, ∀ l u, l ≠ .pinf → u ≠ .ninf → o'.setBounds w j l u = o.setBounds w j l u
  solve : o'.solve = o.solve
  isOptimal : o'.isOptimal = o.isOptimal
  objective : o'.objective = o.objective
  branch : o'.branch = o.branch
  primal : ∀ w, o.isOptimal w = true → o'.primal w = o.primal w
  separate : ∀ w, G w → o'.separate w = o.separate w

variable {o' o : Oracle W} {d : MipData} {G : W → Prop}

theorem SameAnswers.applyBounds (h : SameAnswers o' o d G) (hk : Keeps o d G) {lb ub : List Dbl} :
    ∀ l, (∀ j ∈ l, j ∈ d.integerVariables ∧ (∀ z, vecGet lb j = .ok z → z ≠ .pinf) ∧ ∀ z, vecGet ub j = .ok z → z ≠ .ninf) →
    ∀ w, G w → applyBounds o' lb ub w l = applyBounds o lb ub w l := by
  intro l
  induction l with
  | nil => exact fun _ _ _ => rfl
  | cons j l ih =>
    intro hl w hw
    have ih := ih fun k hk => hl k (by simp [hk])
    obtain ⟨hj, hlo, hup⟩ := hl j (by simp)
    unfold Solver.applyBounds
    cases ha : vecGet lb j with
    | ok a =>
      cases hb : vecGet ub j with
      | ok b =>
        simp only [Outcome.bind_ok]
        rw [h.setBounds w hw j hj a b (hlo a ha) (hup b hb)]
        cases hs : o.setBounds w j a b with
        | ok w1 => exact ih w1 (hk.setBounds w hw j hj a b w1 hs)
        | _ => rfl
      | _ => rfl
    | _ => rfl

/-- The user's bounds of the integer variables are proper. -/
def Proper (d : MipData) : Prop :=
  ∀ j ∈ d.integerVariables, (∀ z, vecGet d.lower j = .ok z → z ≠ .pinf) ∧ ∀ z, vecGet d.upper j = .ok z → z ≠ .ninf

theorem SameAnswers.iterate (h : SameAnswers o' o d G) (hk : Keeps o d G) (hd : Proper d) (prm : Params) (s : State W)
    (ht : s.tree.Simple) (hw : G s.world) :
    iterate o' d prm s = iterate o d prm s ∧ ∀ s', iterate o d prm s = .ok (.again s') → s'.tree.Simple ∧ G s'.world := by
  unfold Solver.iterate
  cases pop s.backjump s.queue with
  | none => exact ⟨rfl, fun s' h => by cases h⟩
  | some x =>
    obtain ⟨node, queue⟩ := x
    simp only
    cases hlb : s.tree.retrieveLower node d.lower with
    | ok lb =>
      cases hub : s.tree.retrieveUpper node d.upper with
      | ok ub =>
        simp only [Outcome.bind_ok]
        have hbounds := h.applyBounds hk (lb := lb) (ub := ub) d.integerVariables (fun j hj =>
          ⟨hj, MipTree.retrieveLower_ne ht hlb j (hd j hj).1, MipTree.retrieveUpper_ne ht hub j (hd j hj).2⟩) s.world hw
        have hgood := (guard_applyBounds hk lb ub d.integerVariables (fun _ h => h) s.world hw).2
        have hnode : solveNode o' d lb ub s.world = solveNode o d lb ub s.world ∧
            ∀ w, solveNode o d lb ub s.world = .ok w → G w := by
          unfold solveNode
          rw [hbounds]
          cases hb : Solver.applyBounds o lb ub s.world d.integerVariables with
          | ok w1 =>
            simp only [Outcome.bind_ok, h.solve, h.isOptimal]
            cases hs : o.solve w1 with
            | ok w2 =>
              have hg2 := hk.solve w1 w2 (hgood w1 hb) hs
              simp only [Outcome.orAbort, Outcome.bind_ok]
              rw [h.separate w2 hg2]
              refine ⟨rfl, fun w hw' => ?_⟩
              split at hw'
              · rename_i hopt
                cases hsep : o.separate w2 with
                | ok w3 => rw [hsep] at hw'; cases hw'; exact hk.separate w2 _ hg2 hopt hsep
                | _ => rw [hsep] at hw'; cases hw'
              · cases hw'; exact hg2
            | _ => exact ⟨rfl, fun w h => by cases h⟩
          | _ => exact ⟨rfl, fun w h => by cases h⟩
        rw [hnode.1]
        cases hn : solveNode o d lb ub s.world with
        | ok w =>
          have hg := hnode.2 w hn
          simp only [Outcome.bind_ok, h.isOptimal]
          by_cases hopt : o.isOptimal w = true
          · simp only [hopt, if_true]
            unfold optimalNode branchNode
            rw [h.objective, h.branch, h.primal w hopt]
            refine ⟨rfl, fun s' hs' => ?_⟩
            simp only [Outcome.bind_eq_ok] at hs'
            obtain ⟨tree, htree, values, -, i, -, hs'⟩ := hs'
            have htree := ht.setLpData htree
            split at hs'
            · split at hs'
              · cases hs'
              · cases hs'; exact ⟨htree, hg⟩
            · simp only [Outcome.bind_eq_ok] at hs'
              obtain ⟨⟨w', col, up⟩, hbr, v, -, ⟨t1, n1⟩, h1, ⟨t2, n2⟩, h2, hs'⟩ := hs'
              cases hs'
              refine ⟨(htree.addNode h1).addNode h2, ?_⟩
              cases hb : o.branch w with
              | ok y => rw [hb] at hbr; cases hbr; exact hk.branch w _ _ _ hg hb
              | _ => rw [hb] at hbr; cases hbr
          · simp only [hopt, if_false]
            refine ⟨rfl, fun s' hs' => ?_⟩
            unfold infeasibleNode at hs'
            by_cases hz : node = 0
            · rw [if_neg (by simp), if_pos hz] at hs'
              cases hs'
            · rw [if_neg (by simp), if_neg hz] at hs'
              simp only [Outcome.bind_eq_ok] at hs'
              obtain ⟨tree, htree, hs'⟩ := hs'
              split at hs'
              · cases hs'; exact ⟨ht.close htree, hg⟩
              · cases hs'; exact ⟨ht.close htree, hg⟩
        | _ => exact ⟨rfl, fun s' h => by cases h⟩
      | _ => exact ⟨rfl, fun s' h => by cases h⟩
    | _ => exact ⟨rfl, fun s' h => by cases h⟩

theorem SameAnswers.solveFuel (h : SameAnswers o' o d G) (hk : Keeps o d G) (hd : Proper d) (prm : Params) :
    ∀ n (s : State W), s.tree.Simple → G s.world → solveFuel o' d prm n s = solveFuel o d prm n s := by
  intro n
  induction n with
  | zero => exact fun _ _ _ => rfl
  | succ n ih =>
    intro s ht hw
    obtain ⟨h1, h2⟩ := h.iterate hk hd prm s ht hw
    unfold Solver.solveFuel
    rw [h1]
    cases hi : Solver.iterate o d prm s with
    | ok t =>
      cases t with
      | again t => exact ih t (h2 t hi).1 (h2 t hi).2
      | stop t => rfl
    | _ => rfl

end Solver

/-! ### The program -/

namespace Program

/-- **C120**, refinement.  For every problem, all parameters, whatever the LP code answers and after any number of
iterations: the debug build of `Solve` aborts or ends like the release build, and so does the debug build of `Create`. -/
theorem C120_refines (e : Engine) (c : Setup.Created) (fuel : Nat) (x : Setup.External) (p : Problem) (user : Setup.ParamsMsg) :
    (debugSolve e c fuel = some .abort ∨ debugSolve e c fuel = solve e c fuel) ∧
    (Setup.debugCreate x p user = .abort ∨ Setup.debugCreate x p user = Setup.create x p user) := by
  refine ⟨(below_oracle e c).solveFuel c.data (params c) fuel _, ?_⟩
  obtain ⟨h1, h2⟩ := Setup.C120_create x p user
  by_cases hs : p.SortedRows
  · exact .inr (h1 hs)
  · by_cases hp : p.findError = ""
    · exact .inl (h2 hp hs)
    · right
      simp [Setup.debugCreate, Setup.create, hp]

theorem proper_of {d : MipData} {p : Problem} (hd : d.Represents p) (hp : p.ProperBounds) : Solver.Proper d := by
  intro j hj
  obtain ⟨n, v, hv, hi, rfl⟩ := (hd.integers j).1 hj
  have := hp v (List.mem_of_getElem? hv) hi
  constructor
  · intro z hz
    rw [hd.lower, vecGet_some (x := v.lower) (by simp [hv])] at hz
    cases hz; exact this.1
  · intro z hz
    rw [hd.upper, vecGet_some (x := v.upper) (by simp [hv])] at hz
    cases hz; exact this.2

theorem same_noCuts (e : Engine) {c : Setup.Created} (hn : NoCuts c.runner.params) {lp₀ : LinearProgram}
    (hint : ∀ j ∈ c.data.integerVariables, 0 ≤ j ∧ j < lp₀.cols.length) :
    Solver.SameAnswers (debugOracle e c) (oracle e c) c.data (PlainGlop lp₀) where
  setBounds r hr j hj l u hl hu := by
    obtain ⟨s, hs⟩ := hr.glop
    have hcols : s.iface.lp.cols.length = lp₀.cols.length := by
      have := hr.good.numCols
      rw [hs] at this
      exact this
    have hlp : r.world.lp.debugSetColumnBounds e j l u = r.world.lp.setColumnBounds j l u := by
      rw [hs]
      obtain ⟨h1, h2⟩ := hint j hj
      have e1 : Dbl.le .pinf l = false := by cases l <;> first | rfl | exact absurd rfl hl
      have e2 : Dbl.le .pinf u.neg = false := by cases u <;> first | rfl | exact absurd rfl hu
      simp only [Lp.debugSetColumnBounds, Lp.infinity, hcols, h1, h2, e1, e2, Outcome.check, decide_true, Bool.and_true,
        if_true, Bool.not_false, Outcome.bind_ok, Lp.setColumnBounds]
      cases Glop.setColumnBounds s.iface j l u <;> rfl
    show (do return { r with world := { r.world with lp := ← r.world.lp.debugSetColumnBounds e j l u } }) = _
    rw [hlp]
    rfl
  solve := rfl
  isOptimal := rfl
  objective := rfl
  branch := rfl
  primal r hr := by
    show r.world.debugPrimal = r.world.primal
    unfold World.debugPrimal
    cases hl : r.world.lp with
    | glop s =>
      have : s.isOptimal = true := by
        have h : r.world.lp.isOptimal = true := hr
        rw [hl] at h
        exact h
      simp [this, Outcome.check]
    | soplex g => rfl
  separate r hr := by
    show debugSeparate e c r = separate e c r
    have hm : ∀ pl, Runner.mayRun c.runner.params { plugins e c with generators := pl } r = false := by
      intro pl
      unfold Runner.mayRun
      rcases hn with hn | hn | hn
      · rw [hr.rounds]; simp [hn]
      · rw [hr.added]; simp [hn]
      · simp [hn, Runner.toSizeT]
    rw [separate_plain hn hr.toPlain]
    unfold debugSeparate debugPlugins Runner.separateFuel
    rw [hm]
    simp

/-- **C120**, without cuts.  For every well-formed problem with sorted rows and proper bounds, whatever the LP code answers,
with Glop and cuts off: the assertions hold from `Create` to the end of `Solve`; the debug build does what the release build
does. -/
theorem C120_no_cuts_partial (p : Problem) (hp : p.WellFormed) (hs : p.SortedRows) (hb : p.ProperBounds) (e : Engine)
    (x : Setup.External) (user : Setup.ParamsMsg) (c : Setup.Created) (h : Setup.debugCreate x p user = .ok c)
    (hl : ∃ s g, c.lpi = .glop s g) (hn : NoCuts c.runner.params) (fuel : Nat) :
    Setup.create x p user = .ok c ∧ debugSolve e c fuel = solve e c fuel := by
  rw [(Setup.C120_create x p user).1 hs] at h
  refine ⟨h, ?_⟩
  obtain ⟨hd, h₀⟩ := created_refines hp h
  have hcols : (start c.lpi).program.cols.length = p.vars.length := h₀.numCols
  have hint : ∀ j ∈ c.data.integerVariables, 0 ≤ j ∧ j < (start c.lpi).program.cols.length := by
    intro j hj
    obtain ⟨n, v, hv, -, rfl⟩ := (hd.integers j).1 hj
    have := (List.getElem?_eq_some_iff.1 hv).1
    rw [hcols]; omega
  refine (same_noCuts e hn hint).solveFuel (keeps_plainGlop hn) (proper_of hd hb) (params c) fuel _ MipTree.simple_init ?_
  obtain ⟨s, g, hl⟩ := hl
  exact ⟨⟨Glop.Extends.refl _, rfl, rfl, rfl⟩, ⟨_, by rw [Solver.initial, hl]; rfl⟩⟩

end Program
end MiniMip
