import Verif.Props.DebugRun
import Verif.Props.ProgramSoplex

/-!
# C120: `Solve` in the debug build with SoPlex, without cuts

`SetColumnBounds` of the SoPlex interface asserts that the bounds do not cross (lpi_soplex.cc:750).  They do for integer
variables with fractional bounds, but then the release build aborts as well: at the CHECK of the next `LpSolve`
(lpi_soplex.cc:111).
-/

namespace MiniMip

open Glop (LinearProgram)

namespace MipTree
variable {P : ℚ → Prop}

/-- Nodes as `Solve` makes them: branching at a finite value with property `P`, no implied bounds. -/
def Marked (P : ℚ → Prop) (t : MipTree) : Prop :=
  ∀ d ∈ t.nodes, (∃ q, d.branchValue = .fin q ∧ P q) ∧ d.impliedLower = [] ∧ d.impliedUpper = []

theorem marked_init (h0 : P 0) : init.Marked P := by
  intro d hd
  simp [init] at hd
  rcases hd with rfl | rfl <;> exact ⟨⟨0, rfl, h0⟩, rfl, rfl⟩

theorem Marked.grow {t : MipTree} (h : t.Marked P) (h0 : P 0) : t.grow.Marked P := by
  unfold MipTree.grow
  split
  · intro d hd
    simp only [List.mem_append, List.mem_singleton] at hd
    rcases hd with hd | rfl
    · exact h d hd
    · exact ⟨⟨0, rfl, h0⟩, rfl, rfl⟩
  · exact h

theorem Marked.addNode {t t' : MipTree} (h : t.Marked P) (h0 : P 0) {p v n : Int} {down : Bool} {q : ℚ} (hPq : P q)
    (ht : t.addNode p v down (.fin q) = .ok (t', n)) : t'.Marked P := by
  simp only [MipTree.addNode, Outcome.bind_eq_ok] at ht
  obtain ⟨_, _, slot, hslot, _, _, ns, hns, _, _, cur, hcur, ns', hns', _, _, _, _, _, _, _, _, _, _, ht⟩ := ht
  cases ht
  have hg := h.grow h0
  have h1 : ∀ d ∈ ns, (∃ q, d.branchValue = .fin q ∧ P q) ∧ d.impliedLower = [] ∧ d.impliedUpper = [] := by
    intro d hd
    rcases mem_vecSet hns hd with hd | rfl
    · exact hg d hd
    · exact ⟨⟨q, rfl, hPq⟩, (hg _ (mem_vecGet hslot)).2⟩
  intro d hd
  rcases mem_vecSet hns' hd with hd | rfl
  · exact h1 d hd
  · have h2 := h1 cur (mem_vecGet hcur)
    exact h2

theorem Marked.reclaim (h0 : P 0) (fuel : Nat) : ∀ {t t' : MipTree} {n : Int}, t.Marked P → reclaim fuel t n = .ok t' → t'.Marked P := by
  induction fuel with
  | zero => intro t t' n _ h; cases h
  | succ fuel ih =>
    intro t t' n h ht
    simp only [MipTree.reclaim, Outcome.bind_eq_ok] at ht
    obtain ⟨c, -, ht⟩ := ht
    split at ht
    · cases ht; exact h
    · simp only [Outcome.bind_eq_ok] at ht
      obtain ⟨d, _, ns, hns, ht⟩ := ht
      have h1 : ∀ oc, (⟨ns, oc, n, t.numClosed + 1⟩ : MipTree).Marked P := by
        intro oc x hx
        rcases mem_vecSet hns hx with hx | rfl
        · exact h x hx
        · exact ⟨⟨0, rfl, h0⟩, rfl, rfl⟩
      by_cases hp : d.parent = -1
      · rw [if_neg (by simpa using hp)] at ht
        simp only [Outcome.bind_eq_ok, if_pos hp] at ht
        obtain ⟨oc, _, ht⟩ := ht
        cases ht; exact h1 _
      · rw [if_pos hp] at ht
        simp only [Outcome.bind_eq_ok, if_neg hp] at ht
        obtain ⟨_, _, oc, _, ht⟩ := ht
        exact ih (h1 _) ht

theorem Marked.close {t t' : MipTree} (h : t.Marked P) (h0 : P 0) {n : Int} (ht : t.close n = .ok t') : t'.Marked P := by
  simp only [MipTree.close, Outcome.bind_eq_ok] at ht
  obtain ⟨-, -, -, -, -, -, -, -, -, -, -, -, ht⟩ := ht
  exact Marked.reclaim h0 _ h ht

theorem Marked.setLpData {t t' : MipTree} (h : t.Marked P) {n : Int} {o : Dbl} (ht : t.setLpData n o = .ok t') : t'.Marked P := by
  simp only [MipTree.setLpData, Outcome.bind_eq_ok] at ht
  obtain ⟨d, hd, -, -, -, -, ns, hns, ht⟩ := ht
  cases ht
  intro x hx
  rcases mem_vecSet hns hx with hx | rfl
  · exact h x hx
  · exact h d (mem_checkedNode hd)

/-- Entry `j` exists and has the property. -/
def Has (Q : Dbl → Prop) (b : List Dbl) (j : Int) : Prop := ∃ z, vecGet b j = .ok z ∧ Q z

theorem has_vecSet {Q : Dbl → Prop} {l l' : List Dbl} {i j : Int} {x y : Dbl} (h : vecSet l i x = .ok l')
    (hx : vecGet l i = .ok y) (hP : Q y → Q x) (hl : Has Q l j) : Has Q l' j := by
  obtain ⟨z, hz, hQ⟩ := hl
  obtain ⟨n, rfl, hlen, rfl⟩ := Solver.vecSet_eq_ok h
  obtain ⟨m, rfl, hz'⟩ := Solver.vecGet_eq_ok hz
  by_cases hnm : n = m
  · subst hnm
    rw [hz] at hx
    cases hx
    exact ⟨x, vecGet_some (by simp [hlen]), hP hQ⟩
  · exact ⟨z, vecGet_some (by rw [List.getElem?_set_ne hnm]; exact hz'), hQ⟩

theorem walkLower_has {Q : Dbl → Prop} (hQ : ∀ a q, P q → Q a → Q (Dbl.max a (Dbl.ceil (.fin q)))) (fuel : Nat) :
    ∀ {t : MipTree} (_ : t.Marked P) {n : Int} {b b' : List Dbl}, walkLower fuel t n b = .ok b' →
    ∀ j, Has Q b j → Has Q b' j := by
  induction fuel with
  | zero =>
    intro t _ n b b' h j hj
    unfold walkLower at h
    split at h
    · cases h; exact hj
    · cases h
  | succ fuel ih =>
    intro t ht n b b' h j hj
    unfold walkLower at h
    split at h
    · cases h; exact hj
    · simp only [Outcome.bind_eq_ok] at h
      obtain ⟨d, hd, b1, h1, b2, h2, h⟩ := h
      obtain ⟨⟨q, hq, hP⟩, hl, -⟩ := ht d (mem_vecGet hd)
      rw [hl] at h1
      cases h1
      refine ih ht h j ?_
      unfold branchLower at h2
      split at h2
      · simp only [Outcome.bind_eq_ok] at h2
        obtain ⟨old, ho, h2⟩ := h2
        rw [hq] at h2
        exact has_vecSet h2 ho (hQ _ _ hP) hj
      · cases h2; exact hj

theorem walkUpper_has {Q : Dbl → Prop} (hQ : ∀ a q, P q → Q a → Q (Dbl.min a (Dbl.floor (.fin q)))) (fuel : Nat) :
    ∀ {t : MipTree} (_ : t.Marked P) {n : Int} {b b' : List Dbl}, walkUpper fuel t n b = .ok b' →
    ∀ j, Has Q b j → Has Q b' j := by
  induction fuel with
  | zero =>
    intro t _ n b b' h j hj
    unfold walkUpper at h
    split at h
    · cases h; exact hj
    · cases h
  | succ fuel ih =>
    intro t ht n b b' h j hj
    unfold walkUpper at h
    split at h
    · cases h; exact hj
    · simp only [Outcome.bind_eq_ok] at h
      obtain ⟨d, hd, b1, h1, b2, h2, h⟩ := h
      obtain ⟨⟨q, hq, hP⟩, -, hl⟩ := ht d (mem_vecGet hd)
      rw [hl] at h1
      cases h1
      refine ih ht h j ?_
      unfold branchUpper at h2
      split at h2
      · simp only [Outcome.bind_eq_ok] at h2
        obtain ⟨old, ho, h2⟩ := h2
        rw [hq] at h2
        exact has_vecSet h2 ho (hQ _ _ hP) hj
      · cases h2; exact hj

end MipTree

/-! ### The loop -/

namespace Solver
variable {W : Type}

/-- The first oracle answers like the second where `Solve` asks it, if it asks for bounds with the properties `L` and `U`.
Setting the bounds and solving are compared in one step. -/
structure SameNodes (o' o : Oracle W) (d : MipData) (G : W → Prop) (P : ℚ → Prop) (L U : Dbl → Prop) : Prop where
  node : ∀ w, G w → ∀ lb ub, (∀ j ∈ d.integerVariables, MipTree.Has L lb j ∧ MipTree.Has U ub j) →
    solveNode o' d lb ub w = solveNode o d lb ub w
  isOptimal : o'.isOptimal = o.isOptimal
  objective : o'.objective = o.objective
  branch : o'.branch = o.branch
  primal : ∀ w, o.isOptimal w = true → o'.primal w = o.primal w
  values : ∀ w values, G w → o.primal w = .ok values → ∀ v ∈ values, P v
  zero : P 0
  lower : ∀ a q, P q → L a → L (Dbl.max a (Dbl.ceil (.fin q)))
  upper : ∀ a q, P q → U a → U (Dbl.min a (Dbl.floor (.fin q)))
  bounds : ∀ j ∈ d.integerVariables, MipTree.Has L d.lower j ∧ MipTree.Has U d.upper j

variable {o' o : Oracle W} {d : MipData} {G : W → Prop} {P : ℚ → Prop} {L U : Dbl → Prop}

theorem solveNode_same {lb ub : List Dbl} {w w' : W} (h1 : applyBounds o' lb ub w d.integerVariables = .ok w')
    (h2 : applyBounds o lb ub w d.integerVariables = .ok w') (hs : o'.solve = o.solve) (hi : o'.isOptimal = o.isOptimal)
    (hsep : ∀ w2, o.solve w' = .ok w2 → o'.separate w2 = o.separate w2) :
    solveNode o' d lb ub w = solveNode o d lb ub w := by
  unfold solveNode
  rw [h1, h2, hs, hi]
  simp only [Outcome.bind_ok]
  cases h : o.solve w' with
  | ok w2 => simp only [Outcome.orAbort, Outcome.bind_ok, hsep w2 h]
  | _ => rfl

theorem solveNode_abort {lb ub : List Dbl} {w w' : W} (h1 : applyBounds o' lb ub w d.integerVariables = .abort)
    (h2 : applyBounds o lb ub w d.integerVariables = .ok w') (hs : (o.solve w').orAbort = .abort) :
    solveNode o' d lb ub w = solveNode o d lb ub w := by
  unfold solveNode
  rw [h1, h2]
  simp only [Outcome.bind_ok, Outcome.bind_abort, hs]

theorem SameNodes.iterate (h : SameNodes o' o d G P L U) (hk : Keeps o d G) (prm : Params) (s : State W)
    (ht : s.tree.Marked P) (hw : G s.world) :
    iterate o' d prm s = iterate o d prm s ∧ ∀ s', iterate o d prm s = .ok (.again s') → s'.tree.Marked P ∧ G s'.world := by
  unfold Solver.iterate
  cases pop s.backjump s.queue with
  | none => exact ⟨rfl, fun s' h => by cases h⟩
  | some x =>
    obtain ⟨node, queue⟩ := x
    simp only
    cases hlb : s.tree.retrieveLower node d.lower with
    | ok lb =>
      cases hub : s.tree.retrieveUpper node d.upper with
      | ok ub =>
        simp only [Outcome.bind_ok]
        have hnode : solveNode o' d lb ub s.world = solveNode o d lb ub s.world := by
          refine h.node s.world hw lb ub fun j hj => ?_
          simp only [MipTree.retrieveLower, MipTree.retrieveUpper, Outcome.bind_eq_ok] at hlb hub
          obtain ⟨-, -, hlb⟩ := hlb
          obtain ⟨-, -, hub⟩ := hub
          exact ⟨MipTree.walkLower_has h.lower _ ht hlb j (h.bounds j hj).1,
            MipTree.walkUpper_has h.upper _ ht hub j (h.bounds j hj).2⟩
        rw [hnode]
        cases hn : solveNode o d lb ub s.world with
        | ok w =>
          have hg : G w := by
            unfold solveNode at hn
            simp only [Outcome.bind_eq_ok] at hn
            obtain ⟨w1, h1, w2, h2, hn⟩ := hn
            have hg1 := (guard_applyBounds hk lb ub d.integerVariables (fun _ h => h) s.world hw).2 w1 h1
            have hg2 : G w2 := by
              cases hs : o.solve w1 with
              | ok y => rw [hs] at h2; cases h2; exact hk.solve w1 _ hg1 hs
              | _ => rw [hs] at h2; cases h2
            split at hn
            · rename_i hopt
              cases hsep : o.separate w2 with
              | ok w3 => rw [hsep] at hn; cases hn; exact hk.separate w2 _ hg2 hopt hsep
              | _ => rw [hsep] at hn; cases hn
            · cases hn; exact hg2
          simp only [Outcome.bind_ok, h.isOptimal]
          by_cases hopt : o.isOptimal w = true
          · simp only [hopt, if_true]
            unfold optimalNode branchNode
            rw [h.objective, h.branch, h.primal w hopt]
            refine ⟨rfl, fun s' hs' => ?_⟩
            simp only [Outcome.bind_eq_ok] at hs'
            obtain ⟨tree, htree, values, hv, i, -, hs'⟩ := hs'
            have htree := ht.setLpData htree
            have hvals : ∀ v ∈ values, P v := by
              cases hp : o.primal w with
              | ok y => rw [hp] at hv; cases hv; exact h.values w _ hg hp
              | _ => rw [hp] at hv; cases hv
            split at hs'
            · split at hs'
              · cases hs'
              · cases hs'; exact ⟨htree, hg⟩
            · simp only [Outcome.bind_eq_ok] at hs'
              obtain ⟨⟨w', col, up⟩, hbr, v, hv, ⟨t1, n1⟩, h1, ⟨t2, n2⟩, h2, hs'⟩ := hs'
              cases hs'
              have hPv := hvals v (MipTree.mem_vecGet hv)
              refine ⟨(htree.addNode h.zero hPv h1).addNode h.zero hPv h2, ?_⟩
              cases hb : o.branch w with
              | ok y => rw [hb] at hbr; cases hbr; exact hk.branch w _ _ _ hg hb
              | _ => rw [hb] at hbr; cases hbr
          · simp only [hopt, if_false]
            refine ⟨rfl, fun s' hs' => ?_⟩
            unfold infeasibleNode at hs'
            by_cases hz : node = 0
            · rw [if_neg (by simp), if_pos hz] at hs'
              cases hs'
            · rw [if_neg (by simp), if_neg hz] at hs'
              simp only [Outcome.bind_eq_ok] at hs'
              obtain ⟨tree, htree, hs'⟩ := hs'
              split at hs'
              · cases hs'; exact ⟨ht.close h.zero htree, hg⟩
              · cases hs'; exact ⟨ht.close h.zero htree, hg⟩
        | _ => exact ⟨rfl, fun s' h => by cases h⟩
      | _ => exact ⟨rfl, fun s' h => by cases h⟩
    | _ => exact ⟨rfl, fun s' h => by cases h⟩

theorem SameNodes.solveFuel (h : SameNodes o' o d G P L U) (hk : Keeps o d G) (prm : Params) :
    ∀ n (s : State W), s.tree.Marked P → G s.world → solveFuel o' d prm n s = solveFuel o d prm n s := by
  intro n
  induction n with
  | zero => exact fun _ _ _ => rfl
  | succ n ih =>
    intro s ht hw
    obtain ⟨h1, h2⟩ := h.iterate hk prm s ht hw
    unfold Solver.solveFuel
    rw [h1]
    cases hi : Solver.iterate o d prm s with
    | ok t =>
      cases t with
      | again t => exact ih t (h2 t hi).1 (h2 t hi).2
      | stop t => rfl
    | _ => rfl

end Solver

/-! ### The program -/

namespace Program

/-- The branching bounds at value `q` are below infinity. -/
def Moderate (I q : ℚ) : Prop := (⌈q⌉ : ℚ) < I ∧ -I < (⌊q⌋ : ℚ)

/-- Infinity of SoPlex is positive, and the optimal points it hands out are below it. -/
structure Engine.SoplexModerate (e : Engine) : Prop where
  pos : 0 < e.soplexInfinity
  points : ∀ n g f, (e.soplex n g).2.1.status = .optimal → (e.soplex n g).2.2.primal = some f →
    ∀ j < g.lp.cols.length, Moderate e.soplexInfinity (f j)

/-- The bounds of the integer variables do not lie beyond the infinity of the LP code on the wrong side. -/
def _root_.MiniMip.Problem.BoundsBelow (p : Problem) (I : ℚ) : Prop :=
  ∀ v ∈ p.vars, v.isInteger = true → Dbl.lt v.lower (.fin I) = true ∧ Dbl.lt (.fin (-I)) v.upper = true

/-- The states of a run of any SoPlex code without cuts. -/
structure AnySoplex (e : Engine) (lp₀ : LinearProgram) (r : Runner World) : Prop extends Plain lp₀ r where
  soplex : ∃ g, r.world.lp = .soplex g ∧ Soplex.freed g = true ∧
    (g.status = .optimal → ∀ f, r.world.report.primal = some f → ∀ j < lp₀.cols.length, Moderate e.soplexInfinity (f j))

theorem soPlexSolve_ok {a : Soplex.Accepts} {g g' : Soplex.Interface} {eps : ℚ} {ct ok : Bool} {ans : Soplex.Answer}
    (h : Soplex.soPlexSolve a g eps ct ans = .ok (g', ok)) :
    Soplex.freed g' = true ∧ (ok = true → g'.status = ans.status) := by
  unfold Soplex.soPlexSolve at h
  simp only [Outcome.bind_eq_ok] at h
  obtain ⟨_, hf, h⟩ := h
  have hf' : Soplex.freed g = true := by
    cases hx : Soplex.freed g with
    | true => rfl
    | false =>
      have : Soplex.freed { g with isSolved := false } = false := hx
      rw [this] at hf; cases hf
  split at h
  · simp only [Outcome.bind_eq_ok] at h
    obtain ⟨-, -, h⟩ := h
    cases h
    exact ⟨hf', fun h => by cases h⟩
  · simp only [Outcome.bind_eq_ok] at h
    obtain ⟨g1, h1, h⟩ := h
    cases h
    unfold Soplex.lpSolve at h1
    simp only [Outcome.bind_eq_ok] at h1
    obtain ⟨-, -, -, -, -, -, -, -, h1⟩ := h1
    cases h1
    split <;> exact ⟨hf', fun _ => rfl⟩

theorem keeps_anySoplex {e : Engine} (he : e.SoplexModerate) {c : Setup.Created}
    (hn : NoCuts c.runner.params) {d : MipData} {lp₀ : LinearProgram} :
    Solver.Keeps (oracle e c) d (AnySoplex e lp₀) where
  setBounds r hg j hj l u r' h := by
    refine ⟨(keeps_plain hn).setBounds (d := d) r hg.toPlain j hj l u r' h, ?_⟩
    obtain ⟨g, hs, hf, ho⟩ := hg.soplex
    simp only [oracle, Outcome.bind_eq_ok] at h
    obtain ⟨lp, h1, h2⟩ := h
    cases h2
    rw [hs] at h1
    simp only [Lp.setColumnBounds, Soplex.setColumnBounds, Outcome.bind_eq_ok] at h1
    obtain ⟨g', ⟨_, -, _, -, _, -, h2⟩, h1⟩ := h1
    cases h1
    cases h2
    exact ⟨_, rfl, hf, ho⟩
  solve r r' hg h := by
    refine ⟨(keeps_plain hn (d := d)).solve r r' hg.toPlain h, ?_⟩
    obtain ⟨g, hs, hf, -⟩ := hg.soplex
    have h1 := (solve_spec h).1
    unfold World.solve at h1
    rw [hs] at h1
    simp only [Outcome.bind_eq_ok] at h1
    obtain ⟨⟨g', ok⟩, h2, h1⟩ := h1
    have hcols : g.lp.cols.length = lp₀.cols.length := by
      have := hg.good.numCols
      rw [hs] at this
      exact this
    cases ok with
    | false => cases h1
    | true =>
      rw [if_pos rfl] at h1
      have h1 := Outcome.ok.inj h1
      rw [← h1]
      obtain ⟨h3, h4⟩ := soPlexSolve_ok h2
      exact ⟨_, rfl, h3, fun ho f hf j hj => he.points _ g f ((h4 rfl).symm.trans ho) hf j (by omega)⟩
  separate r r' hg _ h := by
    have : r = r' := Outcome.ok.inj ((separate_plain hn hg.toPlain).symm.trans h)
    rw [← this]; exact hg
  branch r r' col up hg h := by
    refine ⟨(keeps_plain hn (d := d)).branch r r' col up hg.toPlain h, ?_⟩
    obtain ⟨g, hs, hf, ho⟩ := hg.soplex
    refine ⟨g, by rw [(branch_spec h).1]; exact hs, hf, ?_⟩
    simp only [oracle, Outcome.bind_eq_ok] at h
    obtain ⟨⟨w, col', up'⟩, h1, h2⟩ := h
    cases h2
    unfold branch at h1
    split at h1 <;> simp only [Outcome.bind_eq_ok] at h1 <;> obtain ⟨x, -, h1⟩ := h1 <;> cases h1 <;> exact ho

/-- The bounds cross by more than `eps`. -/
def Crossed (eps : ℚ) (l u : Dbl) : Prop := Dbl.le l (Dbl.add u (.fin eps)) = false

theorem lt_of_crossed {eps I : ℚ} {l u : Dbl} (hl : Dbl.lt l (.fin I) = true) (hu : Dbl.lt (.fin (-I)) u = true)
    (h : Crossed eps l u) : Dbl.lt (Dbl.add u (.fin eps)) l = true := by
  unfold Crossed at h
  cases l <;> cases u <;> simp_all [Dbl.le, Dbl.lt, Dbl.add]

/-- Inconsistent bounds: the solve does not return. -/
theorem solve_crossed {e : Engine} {c : Setup.Created} {lp₀ : LinearProgram} {r : Runner World} (hr : AnySoplex e lp₀ r)
    {j : Int} (hj : 0 ≤ j ∧ j < lp₀.cols.length)
    (hc : Dbl.lt (Dbl.add (bounds r j).2 (.fin e.epsilonZero)) (bounds r j).1 = true) :
    ((oracle e c).solve r).orAbort = .abort := by
  obtain ⟨g, hg, hf, -⟩ := hr.soplex
  have hcols : g.lp.cols.length = lp₀.cols.length := by
    have := hr.good.numCols
    rw [hg] at this
    exact this
  obtain ⟨n, rfl⟩ : ∃ n : Nat, j = n := ⟨j.toNat, by omega⟩
  have hlen : n < g.lp.cols.length := by omega
  have hcr : Soplex.consistent g e.epsilonZero = false := by
    have hb := bounds_nat r n
    rw [hg] at hb
    have hcol : g.lp.cols[n]? = some g.lp.cols[n] := by simp
    simp only [Lp.program, hcol] at hb
    unfold Soplex.consistent
    rw [Bool.and_eq_false_iff]
    left
    rw [List.all_eq_false]
    refine ⟨_, List.getElem_mem hlen, ?_⟩
    rw [hb] at hc
    simpa using hc
  have hf' : g.savedRows.isEmpty = true ∧ g.savedCols.isEmpty = true := by
    simpa [Soplex.freed] using hf
  unfold Soplex.consistent at hcr
  simp only [oracle, World.solve, hg, Soplex.soPlexSolve, Soplex.freed, hf'.1, hf'.2,
    Bool.and_self, Outcome.check, if_true, Outcome.bind_ok]
  cases g.settings.solveFromScratch <;> cases (e.soplex r.world.solves g).1 <;>
    simp [Soplex.lpSolve, Soplex.consistent, Outcome.check, hcr, Outcome.orAbort]
  by_cases hst : g.status = .optimal <;> simp [hst]

/-- Setting bounds in the release build. -/
theorem setBounds_soplex {e : Engine} {c : Setup.Created} {lp₀ : LinearProgram} {r : Runner World} (hr : AnySoplex e lp₀ r)
    {j : Int} (hj : 0 ≤ j ∧ j < lp₀.cols.length) (l u : Dbl) : ∃ r', (oracle e c).setBounds r j l u = .ok r' := by
  obtain ⟨g, hg, hf, -⟩ := hr.soplex
  have hcols : g.lp.cols.length = lp₀.cols.length := by
    have := hr.good.numCols
    rw [hg] at this
    exact this
  have hj2 : j < g.lp.cols.length := by omega
  exact ⟨_, by
    simp only [oracle, hg, Lp.setColumnBounds, Soplex.setColumnBounds, hf, hj.1, hj2, Outcome.check,
      decide_true, if_true, Outcome.bind_ok]
    rfl⟩

/-- And in the debug build. -/
theorem debugSetBounds_soplex {e : Engine} {c : Setup.Created} {lp₀ : LinearProgram} {r r' : Runner World}
    (hr : AnySoplex e lp₀ r) {j : Int} {l u : Dbl}
    (hl : Dbl.lt l (.fin e.soplexInfinity) = true) (hu : Dbl.lt (.fin (-e.soplexInfinity)) u = true)
    (h : (oracle e c).setBounds r j l u = .ok r') :
    (debugOracle e c).setBounds r j l u = if Dbl.le l (Dbl.add u (.fin e.epsilonZero)) then .ok r' else .abort := by
  obtain ⟨g, hg, hf, -⟩ := hr.soplex
  simp only [oracle, Outcome.bind_eq_ok] at h
  obtain ⟨lp, h1, h2⟩ := h
  have hlp : ∃ g', lp = .soplex g' := by
    rw [hg] at h1
    simp only [Lp.setColumnBounds, Outcome.bind_eq_ok] at h1
    obtain ⟨g', -, h1⟩ := h1
    exact ⟨g', by cases h1; rfl⟩
  obtain ⟨g', rfl⟩ := hlp
  have e1 : Dbl.le (r.world.lp.infinity e) l = false := by
    rw [hg]
    cases l <;> simp_all [Dbl.lt, Dbl.le, Lp.infinity]
  have e2 : Dbl.le (r.world.lp.infinity e) u.neg = false := by
    rw [hg]
    cases u <;> simp_all [Dbl.lt, Dbl.le, Lp.infinity, Dbl.neg]
    linarith
  show (do return { r with world := { r.world with lp := ← r.world.lp.debugSetColumnBounds e j l u } }) = _
  unfold Lp.debugSetColumnBounds
  rw [e1, e2, h1]
  cases h2
  rw [hg]
  cases hc : Dbl.le l (Dbl.add u (.fin e.epsilonZero)) <;> simp [Outcome.check, hc]

section
variable {e : Engine} {c : Setup.Created} {lp₀ : LinearProgram}

/-- Both builds set the bounds: equally, or the debug build aborts and the release build has stored crossing bounds. -/
theorem applyBounds_soplex (he : e.SoplexModerate) (hn : NoCuts c.runner.params)
    (hint : ∀ j ∈ c.data.integerVariables, 0 ≤ j ∧ j < lp₀.cols.length) {lb ub : List Dbl} :
    ∀ l, (∀ j ∈ l, j ∈ c.data.integerVariables ∧
      MipTree.Has (fun z => Dbl.lt z (.fin e.soplexInfinity) = true) lb j ∧
      MipTree.Has (fun z => Dbl.lt (.fin (-e.soplexInfinity)) z = true) ub j) →
    ∀ r, AnySoplex e lp₀ r → ∃ r', Solver.applyBounds (oracle e c) lb ub r l = .ok r' ∧ AnySoplex e lp₀ r' ∧
      (∀ j, j ∉ l → bounds r' j = bounds r j) ∧
      (∀ j ∈ l, ∀ a b, vecGet lb j = .ok a → vecGet ub j = .ok b → bounds r' j = (a, b)) ∧
      (Solver.applyBounds (debugOracle e c) lb ub r l = .ok r' ∨
        Solver.applyBounds (debugOracle e c) lb ub r l = .abort ∧ ∃ j ∈ l,
          Dbl.lt (Dbl.add (bounds r' j).2 (.fin e.epsilonZero)) (bounds r' j).1 = true) := by
  intro l
  induction l with
  | nil => exact fun _ r hr => ⟨r, rfl, hr, fun _ _ => rfl, by simp, .inl rfl⟩
  | cons j l ih =>
    intro hl r hr
    obtain ⟨hj, ⟨a, ha, hla⟩, ⟨b, hb, hub⟩⟩ := hl j (by simp)
    obtain ⟨r1, h1⟩ := setBounds_soplex (c := c) hr (hint j hj) a b
    have hr1 := (keeps_anySoplex he hn (d := c.data)).setBounds r hr j hj a b r1 h1
    obtain ⟨-, -, -, hbs, -⟩ := setBounds_spec h1
    obtain ⟨r', h2, hr', hout, hin, hdbg⟩ := ih (fun k hk => hl k (by simp [hk])) r1 hr1
    have hjb : bounds r' j = (a, b) := by
      by_cases hjl : j ∈ l
      · exact hin j hjl a b ha hb
      · rw [hout j hjl, hbs]; simp
    refine ⟨r', ?_, hr', ?_, ?_, ?_⟩
    · simp [Solver.applyBounds, ha, hb, h1, Outcome.orAbort, h2]
    · intro k hk
      simp only [List.mem_cons, not_or] at hk
      rw [hout k hk.2, hbs, Function.update_of_ne hk.1]
    · intro k hk a' b' ha' hb'
      rcases List.mem_cons.1 hk with rfl | hk
      · rw [ha] at ha'; rw [hb] at hb'; cases ha'; cases hb'; exact hjb
      · exact hin k hk a' b' ha' hb'
    · have hd := debugSetBounds_soplex hr hla hub h1
      cases hc : Dbl.le a (Dbl.add b (.fin e.epsilonZero)) with
      | true =>
        rw [hc, if_pos rfl] at hd
        have : Solver.applyBounds (debugOracle e c) lb ub r (j :: l) = Solver.applyBounds (debugOracle e c) lb ub r1 l := by
          simp [Solver.applyBounds, ha, hb, hd, Outcome.orAbort]
        rw [this]
        rcases hdbg with h | ⟨h, k, hk, hlt⟩
        · exact .inl h
        · exact .inr ⟨h, k, by simp [hk], hlt⟩
      | false =>
        rw [hc, if_neg (by simp)] at hd
        refine .inr ⟨by simp [Solver.applyBounds, ha, hb, hd, Outcome.orAbort], j, by simp, ?_⟩
        rw [hjb]
        exact lt_of_crossed hla hub hc

theorem moderate_max {I q : ℚ} {a : Dbl} (hq : Moderate I q) (ha : Dbl.lt a (.fin I) = true) :
    Dbl.lt (Dbl.max a (Dbl.ceil (.fin q))) (.fin I) = true := by
  unfold Dbl.max; split
  · simpa [Dbl.ceil, Dbl.lt] using hq.1
  · exact ha

theorem moderate_min {I q : ℚ} {a : Dbl} (hq : Moderate I q) (ha : Dbl.lt (.fin (-I)) a = true) :
    Dbl.lt (.fin (-I)) (Dbl.min a (Dbl.floor (.fin q))) = true := by
  unfold Dbl.min; split
  · simpa [Dbl.floor, Dbl.lt] using hq.2
  · exact ha

theorem debug_solve : (debugOracle e c).solve = (oracle e c).solve := rfl
theorem debug_isOptimal : (debugOracle e c).isOptimal = (oracle e c).isOptimal := rfl

theorem debugSeparate_plain (hn : NoCuts c.runner.params) {r : Runner World} (hr : Plain lp₀ r) :
    (debugOracle e c).separate r = (oracle e c).separate r := by
  show debugSeparate e c r = separate e c r
  have hm : ∀ pl, Runner.mayRun c.runner.params { plugins e c with generators := pl } r = false := by
    intro pl
    unfold Runner.mayRun
    rcases hn with hn | hn | hn
    · rw [hr.rounds]; simp [hn]
    · rw [hr.added]; simp [hn]
    · simp [hn, Runner.toSizeT]
  rw [separate_plain hn hr]
  unfold debugSeparate debugPlugins Runner.separateFuel
  rw [hm]
  simp

theorem node_soplex (he : e.SoplexModerate) (hn : NoCuts c.runner.params) {p : Problem} (hd : c.data.Represents p)
    (hcols : lp₀.cols.length = p.vars.length) (r : Runner World) (hr : AnySoplex e lp₀ r) (lb ub : List Dbl)
    (hbd : ∀ j ∈ c.data.integerVariables, MipTree.Has (fun z => Dbl.lt z (.fin e.soplexInfinity) = true) lb j ∧
      MipTree.Has (fun z => Dbl.lt (.fin (-e.soplexInfinity)) z = true) ub j) :
    Solver.solveNode (debugOracle e c) c.data lb ub r = Solver.solveNode (oracle e c) c.data lb ub r := by
  have hint : ∀ j ∈ c.data.integerVariables, 0 ≤ j ∧ j < lp₀.cols.length := by
    intro j hj
    obtain ⟨n, v, hv, -, rfl⟩ := (hd.integers j).1 hj
    have := (List.getElem?_eq_some_iff.1 hv).1
    rw [hcols]; omega
  obtain ⟨r', h1, hr', -, -, h2⟩ := applyBounds_soplex he hn hint c.data.integerVariables
    (fun j hj => ⟨hj, hbd j hj⟩) r hr
  rcases h2 with h2 | ⟨h2, j, hj, hlt⟩
  · exact Solver.solveNode_same h2 h1 debug_solve debug_isOptimal fun r2 hs => debugSeparate_plain hn
      ((keeps_anySoplex he hn (d := c.data)).solve r' r2 hr' hs).toPlain
  · exact Solver.solveNode_abort h2 h1 (solve_crossed hr' (hint j hj) hlt)

theorem values_soplex {r : Runner World} {values : List ℚ} (hr : AnySoplex e lp₀ r)
    (h : (oracle e c).primal r = .ok values) : ∀ v ∈ values, Moderate e.soplexInfinity v := by
  obtain ⟨g, hg, -, ho⟩ := hr.soplex
  have hc : g.lp.cols.length = lp₀.cols.length := by
    have := hr.good.numCols
    rw [hg] at this
    exact this
  have h : r.world.primal = .ok values := h
  unfold World.primal at h
  rw [hg] at h
  simp only [Soplex.getPrimalValues, Outcome.bind_eq_ok] at h
  obtain ⟨b, hb, _, hchk, h⟩ := h
  have hst : g.status = .optimal := by
    unfold Soplex.isOptimal at hb
    simp only [Outcome.bind_eq_ok] at hb
    obtain ⟨-, -, hb⟩ := hb
    have hb := Outcome.ok.inj hb
    by_contra hne
    rw [← hb] at hchk
    simp [hne, Outcome.check] at hchk
  cases hp : r.world.report.primal with
  | none => rw [hp] at h; cases h
  | some f =>
    rw [hp] at h
    cases h
    intro v hv
    obtain ⟨j, hj, rfl⟩ := List.mem_map.1 hv
    exact ho hst f hp j (by have := List.mem_range.1 hj; omega)

theorem sameNodes_soplex (he : e.SoplexModerate) (hn : NoCuts c.runner.params) {p : Problem} (hd : c.data.Represents p)
    (hb : p.BoundsBelow e.soplexInfinity) (hcols : lp₀.cols.length = p.vars.length) :
    Solver.SameNodes (debugOracle e c) (oracle e c) c.data (AnySoplex e lp₀) (Moderate e.soplexInfinity)
      (fun z => Dbl.lt z (.fin e.soplexInfinity) = true) (fun z => Dbl.lt (.fin (-e.soplexInfinity)) z = true) where
  node := node_soplex he hn hd hcols
  isOptimal := rfl
  objective := rfl
  branch := rfl
  primal r hr := by
    show r.world.debugPrimal = r.world.primal
    unfold World.debugPrimal
    cases hl : r.world.lp with
    | glop s =>
      have : s.isOptimal = true := by
        have h : r.world.lp.isOptimal = true := hr
        rw [hl] at h
        exact h
      simp [this, Outcome.check]
    | soplex g => rfl
  values _ _ := values_soplex
  zero := by have := he.pos; exact ⟨by simpa using this, by simpa using this⟩
  lower _ _ := moderate_max
  upper _ _ := moderate_min
  bounds j hj := by
    obtain ⟨n, v, hv, hi, rfl⟩ := (hd.integers j).1 hj
    have := hb v (List.mem_of_getElem? hv) hi
    exact ⟨⟨v.lower, by rw [hd.lower]; exact vecGet_some (by simp [hv]), this.1⟩,
      ⟨v.upper, by rw [hd.upper]; exact vecGet_some (by simp [hv]), this.2⟩⟩

end

/-- **C120**, without cuts, SoPlex.  For every well-formed problem with sorted rows whose bounds lie within the infinity of
SoPlex, without cuts, whatever SoPlex answers as long as its optimal points lie within its infinity: the debug build does what
the release build does.  It asserts that bounds do not cross where they are set, but where they cross the release build
aborts as well, at the next solve. -/
theorem C120_soplex_no_cuts_partial (p : Problem) (hp : p.WellFormed) (hs : p.SortedRows) (e : Engine)
    (he : e.SoplexModerate) (hb : p.BoundsBelow e.soplexInfinity)
    (x : Setup.External) (user : Setup.ParamsMsg) (c : Setup.Created) (h : Setup.debugCreate x p user = .ok c)
    (hl : ∃ g, c.lpi = .soplex g) (hn : NoCuts c.runner.params) (fuel : Nat) :
    Setup.create x p user = .ok c ∧ debugSolve e c fuel = solve e c fuel := by
  rw [(Setup.C120_create x p user).1 hs] at h
  refine ⟨h, ?_⟩
  obtain ⟨hd, h₀⟩ := created_refines hp h
  have hps := plainSoplex_start hp h hl
  refine (sameNodes_soplex he hn hd hb h₀.numCols).solveFuel (keeps_anySoplex he hn) (params c) fuel _
    (MipTree.marked_init (sameNodes_soplex he hn hd hb h₀.numCols).zero) ?_
  refine ⟨hps.toPlain, ?_⟩
  obtain ⟨g, hg, hf, -⟩ := hps.soplex
  exact ⟨g, hg, hf, fun _ f hf => by cases hf⟩

open Classical in
/-- SoPlex that answers rightly, and gives up where an optimal point lies beyond `1e100`. -/
noncomputable def clipped : Engine :=
  { perfect with
    soplexInfinity := 10 ^ 100
    soplex := fun n g =>
      if ∀ f, (perfect.soplex n g).2.2.primal = some f → ∀ j < g.lp.cols.length, Moderate (10 ^ 100) (f j) then
        perfect.soplex n g
      else (false, { (perfect.soplex n g).2.1 with status := .unknown }, (perfect.soplex n g).2.2) }

theorem clipped_moderate : clipped.SoplexModerate := by
  refine ⟨by simp [clipped], fun n g f hst hf j hj => ?_⟩
  simp only [clipped] at hst hf ⊢
  split at hst
  · rename_i h
    rw [if_pos h] at hf
    exact h f hf j hj
  · cases hst

/-- Non-vacuity of `C120_soplex_no_cuts_partial`: `max x`, `0 ≤ x ≤ 7/2`, whose bounds cross in the second node. -/
example : half.WellFormed ∧ half.SortedRows ∧ clipped.SoplexModerate ∧ half.BoundsBelow clipped.soplexInfinity ∧
    ∃ c, Setup.debugCreate Setup.exExternal half soplexUser = .ok c ∧ (∃ g, c.lpi = .soplex g) ∧ NoCuts c.runner.params := by
  have hp := half_spec.1
  have hs : half.SortedRows := by simp [Problem.SortedRows, half]
  refine ⟨hp, hs, clipped_moderate, ?_, ?_⟩
  · intro v hv _
    simp [half] at hv
    subst hv
    simp [clipped, Dbl.lt]
    norm_num
  obtain ⟨s, hs'⟩ : ∃ s, Setup.newSoplex Setup.exExternal = .ok s := ⟨_, rfl⟩
  obtain ⟨c, hc⟩ := (Setup.C73_soplex_partial Setup.exExternal rfl s hs' half hp soplexUser _ (Setup.lpWins _) rfl).2
    (fun _ _ => rfl) (fun _ _ => rfl) (by
      refine ⟨⟨?_, ?_, ?_, ?_, ?_, ?_, ?_, ?_⟩, rfl, ?_, ?_, ?_, ?_⟩ <;> simp [soplexUser, Setup.LpMsg.read, ToleranceOk])
  obtain ⟨-, -, -, hmi, -⟩ := Setup.C58_user_wins_partial Setup.exExternal half hp soplexUser c hc
  exact ⟨c, ((Setup.C120_create _ _ _).1 hs).trans hc, soplex_created hc rfl, Or.inl (by rw [hmi.1 0 rfl])⟩

end Program
end MiniMip
