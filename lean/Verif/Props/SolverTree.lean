import Verif.Props.Solver
import Verif.Props.Problem
import Verif.Props.ProgramTotal

/-!
# C109: the tree that `Solve` leaves behind

Nodes with an integral LP optimum are never closed.  When `Solve` returns OK, the nodes without children that are left are
exactly these, one for each solution that was found.
-/

namespace MiniMip

namespace MipTree

open ATree

/-- A tree is related to one specification state only. -/
theorem Rel.unique {s : MipTree} {t t' : ATree} (h : Rel s t) (h' : Rel s t') : t = t' := by
  have key : ∀ {t t' : ATree}, Rel s t → Rel s t' → ∀ m r, t m = some r → t' m = some r := by
    intro t t' h h' m r hr
    have h1 := h.live m r hr
    cases hr' : t' m with
    | none =>
      have := congrArg NodeData.depth (h'.dead m _ h1 hr')
      simp only [Rec.toNode] at this
      omega
    | some r' =>
      have h2 := h'.live m r' hr'
      rw [h1] at h2
      have h2 := Option.some.inj h2
      obtain ⟨p, d, v, dn, va, ob, lo, up⟩ := r
      obtain ⟨p', d', v', dn', va', ob', lo', up'⟩ := r'
      simp only [Rec.toNode, NodeData.mk.injEq] at h2
      obtain ⟨e1, e2, -, -, e3, e4, e5, e6, e7, e8⟩ := h2
      have : p = p' := by
        cases p <;> cases p' <;> simp at e1 ⊢
        all_goals omega
      have : d = d' := by omega
      simp_all
  funext m
  cases hm : t m with
  | some r => rw [key h h' m r hm]
  | none =>
    cases hm' : t' m with
    | none => rfl
    | some r => rw [key h' h m r hm'] at hm; cases hm

/-- A live node without children. -/
def ATree.Leaf (t : ATree) (n : Nat) : Prop := t.Live n ∧ t.Children n = ∅

open Classical in
/-- Closing a leaf makes no other node a leaf, and keeps the other leaves. -/
theorem close_leaves {t : ATree} {n : Nat} (hn : t.Leaf n) (m : Nat) :
    ATree.Leaf (t.apply (.close n) none) m ↔ t.Leaf m ∧ m ≠ n := by
  have happ : ∀ m, (t.apply (.close n) none) m = if t.Removed n m then none else t m := fun m => rfl
  have hself : t.Removed n n := by
    refine ⟨.refl, fun d _ hd => ?_⟩
    rcases Relation.ReflTransGen.cases_head hd with rfl | ⟨c, hc, -⟩
    · exact .refl
    · have : c ∈ t.Children n := hc
      rw [hn.2] at this; exact absurd this (Set.notMem_empty c)
  constructor
  · rintro ⟨⟨r, hr⟩, hch⟩
    rw [happ] at hr
    split at hr
    · cases hr
    rename_i hrem
    refine ⟨⟨⟨r, hr⟩, ?_⟩, fun h => hrem (h ▸ hself)⟩
    have hdown : ∀ c, t.ParentOf m c → t.Removed n c := by
      intro c hc
      by_contra hno
      obtain ⟨rc, hrc, hp⟩ := hc
      have : c ∈ ATree.Children (t.apply (.close n) none) m := ⟨rc, by rw [happ, if_neg hno]; exact hrc, hp⟩
      rw [hch] at this; exact this
    rw [Set.eq_empty_iff_forall_notMem]
    intro c hc
    refine hrem ⟨Relation.ReflTransGen.head hc (hdown c hc).1, fun d hd hmd => ?_⟩
    rcases Relation.ReflTransGen.cases_head hmd with rfl | ⟨c', hc', hd'⟩
    · exact Relation.ReflTransGen.head hc (hdown c hc).1
    · exact (hdown c' hc').2 d hd hd'
  · rintro ⟨⟨⟨r, hr⟩, hch⟩, hne⟩
    refine ⟨⟨r, ?_⟩, ?_⟩
    · rw [happ, if_neg (Solver.close_keeps ⟨r, hr⟩ hch hne .refl)]; exact hr
    · rw [Set.eq_empty_iff_forall_notMem]
      rintro c ⟨rc, hrc, hp⟩
      rw [happ] at hrc
      split at hrc
      · cases hrc
      · have : c ∈ t.Children m := ⟨rc, hrc, hp⟩
        rw [hch] at this; exact this

end MipTree

/-! ### Specification -/

/-- A node that can be read and has no open children, as a caller sees it. -/
def MipTree.ReadableLeaf (tree : MipTree) (n : Nat) : Prop :=
  (∃ d, tree.node n = .ok d) ∧ tree.numOpenChildren n = .ok 0

/-- The solutions in a result: the additional ones, and the best one if there is one. -/
def SolveResult.recorded (r : SolveResult) : List Solution :=
  if r.best.objective = .pinf then r.additional else r.best :: r.additional

/-- The best solution is that of a new result, or has an objective value that is neither NaN nor infinity. -/
def SolveResult.Sane (r : SolveResult) : Prop :=
  r.best.objective ≠ .nan ∧ (r.best.objective = .pinf → r.best = {})

theorem SolveResult.recorded_addSolution (r : SolveResult) (s : Solution) (hr : r.Sane) :
    (r.addSolution s).recorded.Perm (r.recorded ++ [s]) ∧ (r.addSolution s).Sane := by
  unfold addSolution recorded Sane
  by_cases hlt : Dbl.lt s.objective r.best.objective = true
  · have hs : s.objective ≠ .nan ∧ s.objective ≠ .pinf := by
      constructor <;> intro h <;> rw [h] at hlt <;> cases hb : r.best.objective <;> rw [hb] at hlt <;> simp [Dbl.lt] at hlt
    rw [if_pos hlt]
    by_cases hp : r.best.objective = .pinf
    · have : Dbl.ne r.best.objective .pinf = false := by rw [hp]; rfl
      rw [this]
      simp only [Bool.false_eq_true, if_false, hs.2, hp, if_true]
      exact ⟨(List.perm_append_singleton s r.additional).symm, hs.1, False.elim⟩
    · have : Dbl.ne r.best.objective .pinf = true := by
        cases hb : r.best.objective <;> simp_all [Dbl.ne, Dbl.eq]
      simp only [this, if_true, hs.2, if_false, hp]
      refine ⟨?_, hs.1, False.elim⟩
      refine (List.Perm.cons s (List.perm_append_singleton r.best r.additional)).trans ?_
      exact (List.perm_append_singleton s (r.best :: r.additional)).symm
  · rw [if_neg hlt]
    refine ⟨?_, hr⟩
    by_cases hp : r.best.objective = .pinf
    · simp [hp]
    · simp [hp]

namespace Solver

open MipTree ATree

variable {W : Type}

/-- The leaves of the tree are the nodes in the queue and the nodes `done`, which show the objectives of the
solutions. -/
structure Accounts (t : ATree) (q done : List Nat) (sols : List Solution) : Prop where
  nodup : (q ++ done).Nodup
  leaf : ∀ n, t.Leaf n ↔ n ∈ q ++ done
  shows : List.Forall₂ (fun n sol => ∃ r, t n = some r ∧ r.obj = sol.objective) done sols

/-- The invariant of the loop. -/
def Accounted (d : MipData) (s : State W) (sols : List Solution) : Prop :=
  s.result.Sane ∧ sols.Perm s.result.recorded ∧
  ∃ t q done, TreeInv d.lower.length s.queue s.tree t q ∧ Accounts t q done sols

theorem leaf_init (n : Nat) : ATree.Leaf ATree.init n ↔ n = 0 := by
  constructor
  · rintro ⟨⟨r, hr⟩, -⟩
    unfold ATree.init at hr
    split at hr
    · assumption
    · cases hr
  · rintro rfl
    exact ⟨⟨_, by simp [ATree.init]; rfl⟩, children_empty_of_init 0⟩

theorem accounted_initial (d : MipData) (w : W) : Accounted d (initial w) [] := by
  refine ⟨by simp [initial, SolveResult.Sane], by simp [initial, SolveResult.recorded], ATree.init, [0], [],
    ⟨⟨_, Exec.init⟩, by simp [initial], by simp, ?_, Rec.plainRecs_init _⟩, by simp, ?_, by simp⟩
  · intro n hn
    exact (leaf_init n).2 (by simpa using hn)
  · intro n
    rw [leaf_init]; simp

/-- Every live node is below the root. -/
theorem root_anc {t : ATree} (h : t.WF) : ∀ (k m : Nat) (r : Rec), t m = some r → r.depth = k → t.Anc 0 m := by
  intro k
  induction k with
  | zero =>
    intro m r hr hk
    have := h m r hr
    cases hp : r.parent with
    | none => rw [hp] at this; rw [this.1]; exact .refl
    | some p => rw [hp] at this; obtain ⟨-, rp, -, hd⟩ := this; omega
  | succ k ih =>
    intro m r hr hk
    have := h m r hr
    cases hp : r.parent with
    | none => rw [hp] at this; omega
    | some p =>
      rw [hp] at this
      obtain ⟨-, rp, hrp, hd⟩ := this
      exact (ih p rp hrp (by omega)).tail ⟨r, hr, hp⟩

/-- If the root has no children, it is the only node. -/
theorem only_root {t : ATree} (h : t.WF) (h0 : t.Leaf 0) {m : Nat} (hm : t.Live m) : m = 0 := by
  obtain ⟨r, hr⟩ := hm
  rcases Relation.ReflTransGen.cases_head (root_anc h _ m r hr rfl) with h1 | ⟨c, hc, -⟩
  · exact h1.symm
  · have : c ∈ t.Children 0 := hc
    rw [h0.2] at this; exact absurd this (Set.notMem_empty c)

/-- What is known when the loop has been left. -/
def Finished (s : State W) (sols : List Solution) : Prop :=
  s.queue = [] ∧ s.result.Sane ∧ sols.Perm s.result.recorded ∧ ∃ st t done, Exec st s.tree t ∧ Accounts t [] done sols

theorem Accounts.perm {t : ATree} {q q' done : List Nat} {sols : List Solution} (h : Accounts t q done sols)
    (hq : q.Perm q') : Accounts t q' done sols :=
  ⟨(hq.append_right done).nodup_iff.1 h.nodup, fun n => by rw [h.leaf n, (hq.append_right done).mem_iff], h.shows⟩

/-- One iteration. -/
theorem accounted_step {o : Oracle W} {d : MipData} {prm : Params} {s : State W} {sols : List Solution}
    (hd : DataOk d) (hp : PrimalShape o d.lower.length) (h : Accounted d s sols) :
    (∀ s', iterate o d prm s = .ok (.again s') → ∃ sols', Accounted d s' sols') ∧
    (∀ s', iterate o d prm s = .ok (.stop s') → ∃ sols', Finished s' sols') := by
  obtain ⟨hnan, hperm, t, q, done, hinv, hacc⟩ := h
  suffices key : ∀ res, iterate o d prm s = .ok res →
      (∃ s', res = .again s' ∧ ∃ sols', Accounted d s' sols') ∨
      (∃ s', res = .stop s' ∧ ∃ sols', Finished s' sols') by
    constructor
    · intro s' hs
      rcases key _ hs with ⟨s₁, h1, h2⟩ | ⟨s₁, h1, -⟩
      · cases h1; exact h2
      · cases h1
    · intro s' hs
      rcases key _ hs with ⟨s₁, h1, -⟩ | ⟨s₁, h1, h2⟩
      · cases h1
      · cases h1; exact h2
  intro res h
  unfold iterate at h
  rw [hinv.queue] at h
  rcases pop_spec s.backjump q with ⟨h1, rfl⟩ | ⟨n, q', h1, hpop⟩
  · rw [h1] at h
    have h := Outcome.ok.inj h
    subst h
    obtain ⟨st, hex⟩ := hinv.exec
    exact Or.inr ⟨s, rfl, sols, by simpa using hinv.queue, hnan, hperm, st, t, done, hex, hacc⟩
  · rw [h1] at h
    simp only at h
    obtain ⟨hlive, hleaf, hnd, hq, lb, ub, hlb, hub, hbs⟩ := pop_node hinv d hd rfl hpop
    have hacc := hacc.perm hpop.perm
    have hnq : n ∉ q' ++ done := by
      have := hacc.nodup
      rw [List.cons_append, List.nodup_cons] at this
      exact this.1
    have hnd' : (q' ++ done).Nodup := (List.nodup_cons.1 hacc.nodup).2
    obtain ⟨st, hex⟩ := hinv.exec
    rw [hlb, hub] at h
    simp only [Outcome.bind_ok, Outcome.bind_eq_ok] at h
    obtain ⟨w, hw, h⟩ := h
    cases hopt : o.isOptimal w with
    | false =>
      rw [hopt] at h
      simp only [Bool.false_eq_true, if_false] at h
      unfold infeasibleNode at h
      split at h
      · cases h
      · rename_i hn0
        obtain ⟨tree', t', hc1, hc2, -⟩ := close_step hex hlive hleaf (by omega) hinv.recs hq hnd
        rw [hc1] at h
        simp only [Outcome.bind_ok, Outcome.pure_eq] at h
        have ht' : t' = t.apply (.close n) none := by
          obtain ⟨tree₂, e1, e2, -⟩ := hex.rel.close (n := n) ⟨hlive, by omega, Or.inl (by rw [hleaf]; simp)⟩
          rw [hc1] at e1
          have e1 := Outcome.ok.inj e1
          subst e1
          obtain ⟨st', hex'⟩ := hc2.exec
          exact hex'.rel.unique e2
        have hl' : ∀ m, t'.Leaf m ↔ m ∈ q' ++ done := by
          intro m
          rw [ht', close_leaves ⟨hlive, hleaf⟩, hacc.leaf m, List.cons_append, List.mem_cons]
          constructor
          · rintro ⟨rfl | h, hne⟩
            · exact absurd rfl hne
            · exact h
          · intro h
            exact ⟨Or.inr h, fun hmn => hnq (hmn ▸ h)⟩
        have hacc' : Accounts t' q' done sols := by
          refine ⟨hnd', hl', ?_⟩
          refine List.forall₂_iff_get.2 ⟨hacc.shows.length_eq, fun i h1 h2 => ?_⟩
          obtain ⟨r, hr, ho⟩ := hacc.shows.get h1 h2
          refine ⟨r, ?_, ho⟩
          have hm : done.get ⟨i, h1⟩ ∈ done := List.get_mem _ _
          have hlf := (hacc.leaf _).2 (List.mem_append_right (n :: q') hm)
          have hne : done.get ⟨i, h1⟩ ≠ n := fun he => hnq (List.mem_append_right _ (he ▸ hm))
          rw [ht']
          have hrem := close_keeps hlf.1 hlf.2 hne .refl
          simp only [ATree.apply, hrem, if_false]
          exact hr
        left
        split at h
        · have h := Outcome.ok.inj h
          subst h
          exact ⟨_, rfl, sols, hnan, hperm, t', q', done, hc2, hacc'⟩
        · have h := Outcome.ok.inj h
          subst h
          exact ⟨_, rfl, sols, hnan, hperm, t', q', done, hc2, hacc'⟩
    | true =>
      rw [hopt] at h
      simp only [if_true] at h
      unfold optimalNode at h
      obtain ⟨tree1, t1, hl1, ⟨st1, hex1⟩, hl3, hl4, hl5, -⟩ :=
        setLp_step (o.objective w) hex hlive hleaf hinv.recs
      have ht1 : t1 = t.apply (.setLp n (o.objective w)) none := by
        obtain ⟨tree₂, e1, e2, -⟩ := hex.rel.setLp (n := n) (o.objective w) ⟨hlive, by rw [hleaf]; simp⟩
        rw [hl1] at e1
        have e1 := Outcome.ok.inj e1
        subst e1
        exact hex1.rel.unique e2
      have ht1n : ∃ r, t1 n = some r ∧ r.obj = o.objective w := by
        obtain ⟨r, hr⟩ := hlive
        exact ⟨{ r with obj := o.objective w }, by rw [ht1]; simp [ATree.apply, hr], rfl⟩
      have ht1m : ∀ m, m ≠ n → t1 m = t m := by
        intro m hm
        rw [ht1]; simp [ATree.apply, hm]
      have hlf1 : ∀ m, t1.Leaf m ↔ t.Leaf m := by
        intro m
        unfold ATree.Leaf
        rw [hl5]
        refine and_congr_left fun _ => ⟨fun hm => ?_, hl4 m⟩
        by_cases hmn : m = n
        · rw [hmn]; exact hlive
        · obtain ⟨r, hr⟩ := hm
          exact ⟨r, by rw [← ht1m m hmn]; exact hr⟩
      have hshow1 : List.Forall₂ (fun n sol => ∃ r, t1 n = some r ∧ r.obj = sol.objective) done sols := by
        refine List.forall₂_iff_get.2 ⟨hacc.shows.length_eq, fun i h1 h2 => ?_⟩
        obtain ⟨r, hr, ho⟩ := hacc.shows.get h1 h2
        refine ⟨r, ?_, ho⟩
        have hm : done.get ⟨i, h1⟩ ∈ done := List.get_mem _ _
        rw [ht1m _ (fun he => hnq (List.mem_append_right _ (he ▸ hm)))]
        exact hr
      rw [hl1] at h
      simp only [Outcome.bind_ok, Outcome.bind_eq_ok, orAbort_eq_ok] at h
      obtain ⟨values, hv, integral, hi, h⟩ := h
      have hq1 : ∀ m ∈ q', m ≠ n ∧ t1.Live m ∧ t1.Children m = ∅ := by
        intro m hm
        obtain ⟨e1, e2, e3⟩ := hq m hm
        exact ⟨e1, hl4 m e2, by rw [hl5, e3]⟩
      cases integral with
      | true =>
        simp only [if_true] at h
        obtain ⟨hrec, hnan'⟩ := SolveResult.recorded_addSolution s.result ⟨values, o.objective w⟩ hnan
        have hperm' : (sols ++ [(⟨values, o.objective w⟩ : Solution)]).Perm
            (s.result.addSolution ⟨values, o.objective w⟩).recorded :=
          (hperm.append_right _).trans hrec.symm
        have hacc' : Accounts t1 q' (done ++ [n]) (sols ++ [⟨values, o.objective w⟩]) := by
          have hp1 : (n :: (q' ++ done)).Perm (q' ++ (done ++ [n])) := by
            rw [← List.append_assoc]
            exact (List.perm_append_singleton n (q' ++ done)).symm
          refine ⟨hp1.nodup_iff.1 hacc.nodup, fun m => ?_, ?_⟩
          · rw [hlf1, hacc.leaf m, ← hp1.mem_iff]; rfl
          · exact List.rel_append hshow1 (List.Forall₂.cons (by exact ht1n) List.Forall₂.nil)
        have htree : TreeInv d.lower.length (q'.map (fun n => (n : Int))) tree1 t1 q' :=
          ⟨⟨st1, hex1⟩, rfl, hnd, fun m hm => (hq1 m hm).2, hl3⟩
        split at h
        · rename_i hn0
          obtain rfl : n = 0 := by omega
          have h := Outcome.ok.inj h
          subst h
          right
          have hq0 : q' = [] := by
            rw [List.eq_nil_iff_forall_not_mem]
            intro m hm
            exact (hq1 m hm).1 (only_root hex1.rel.wf ((hlf1 0).2 ⟨hlive, hleaf⟩) (hq1 m hm).2.1)
          subst hq0
          exact ⟨_, rfl, _, rfl, hnan', hperm', st1, t1, done ++ [0], hex1, hacc'⟩
        · have h := Outcome.ok.inj h
          subst h
          exact Or.inl ⟨_, rfl, _, hnan', hperm', t1, q', done ++ [n], htree, hacc'⟩
      | false =>
        simp only [Bool.false_eq_true, if_false] at h
        unfold branchNode at h
        simp only [Outcome.bind_eq_ok, orAbort_eq_ok] at h
        obtain ⟨⟨w', col, up⟩, hbr, v, hcv, h⟩ := h
        obtain ⟨c, rfl, hc⟩ := vecGet_eq_ok hcv
        have hclt : c < d.lower.length := by
          rw [← hp w values hv]; exact (List.getElem?_eq_some_iff.1 hc).1
        have hvar : (0 : Int) ≤ (c : Int) ∧ (c : Int) < d.lower.length := by omega
        have hn1 : t1.Live n := hl4 n hlive
        have hc1 : t1.Children n = ∅ := by rw [hl5, hleaf]
        obtain ⟨tree2, t2, dn, a1, ⟨st2, a2⟩, a3, a4, a5, a6, a7, a8, a9, -, -⟩ :=
          add_step (down := true) (v := v) hex1 hn1 (by rw [hc1]; simp) hl3 hvar
        obtain ⟨tree3, t3, un, b1, ⟨st3, b2⟩, b3, b4, b5, b6, b7, b8, b9, -, -⟩ :=
          add_step (down := false) (v := v) a2 (a7 n hn1) (by rw [a9, hc1]; simp) a3 hvar
        have hold2 : ∀ m, m ≠ dn → t2 m = t1 m := by
          obtain ⟨tree₂, k, e1, e2, e3, -⟩ := hex1.rel.add (p := n) (var := (c : Int)) (down := true) (value := .fin v)
            ⟨hn1, by rw [hc1]; simp⟩
          rw [a1] at e1
          obtain ⟨e4, e5⟩ := Prod.mk.inj (Outcome.ok.inj e1)
          have e5 : dn = k := by omega
          subst e4 e5
          intro m hm
          rw [a2.rel.unique e3]
          simp [ATree.apply, hm]
        have hold3 : ∀ m, m ≠ un → t3 m = t2 m := by
          obtain ⟨tree₂, k, e1, e2, e3, -⟩ := a2.rel.add (p := n) (var := (c : Int)) (down := false) (value := .fin v)
            ⟨a7 n hn1, by rw [a9, hc1]; simp⟩
          rw [b1] at e1
          obtain ⟨e4, e5⟩ := Prod.mk.inj (Outcome.ok.inj e1)
          have e5 : un = k := by omega
          subst e4 e5
          intro m hm
          rw [b2.rel.unique e3]
          simp [ATree.apply, hm]
        have hdnn : dn ≠ n := by rintro rfl; exact a4 hn1
        have hund : un ≠ dn := by rintro rfl; exact b4 a5
        have hunn : un ≠ n := by rintro rfl; exact b4 (a7 _ hn1)
        have hin1 : ∀ m ∈ q' ++ done, t1.Leaf m := fun m hm =>
          (hlf1 m).2 ((hacc.leaf m).2 (List.mem_cons_of_mem n hm))
        have hdq : dn ∉ q' ++ done := fun hm => a4 (hin1 dn hm).1
        have huq : un ∉ q' ++ done := fun hm => b4 (a7 _ (hin1 un hm).1)
        have hleaf3 : ∀ m, t3.Leaf m ↔ m = un ∨ m = dn ∨ m ∈ q' ++ done := by
          intro m
          constructor
          · rintro ⟨⟨r, hr⟩, hch⟩
            by_cases h1 : m = un
            · exact Or.inl h1
            by_cases h2 : m = dn
            · exact Or.inr (Or.inl h2)
            right; right
            have hmn : m ≠ n := by
              rintro rfl
              rw [b9] at hch
              exact (Set.insert_nonempty _ _).ne_empty hch
            have hm1 : t1.Leaf m := by
              refine ⟨⟨r, by rw [← hold2 m h2, ← hold3 m h1]; exact hr⟩, ?_⟩
              rw [← a8 m hmn, ← b8 m hmn]; exact hch
            have := (hacc.leaf m).1 ((hlf1 m).1 hm1)
            rw [List.cons_append, List.mem_cons] at this
            exact this.resolve_left hmn
          · rintro (rfl | rfl | hm)
            · exact ⟨b5, b6⟩
            · exact ⟨b7 _ a5, by rw [b8 _ hdnn]; exact a6⟩
            · obtain ⟨e1, e2⟩ := hin1 m hm
              have hmn : m ≠ n := fun he => hnq (he ▸ hm)
              exact ⟨b7 m (a7 m e1), by rw [b8 m hmn, a8 m hmn]; exact e2⟩
        have hshow3 : List.Forall₂ (fun n sol => ∃ r, t3 n = some r ∧ r.obj = sol.objective) done sols := by
          refine List.forall₂_iff_get.2 ⟨hacc.shows.length_eq, fun i h1 h2 => ?_⟩
          obtain ⟨r, hr, ho⟩ := hshow1.get h1 h2
          refine ⟨r, ?_, ho⟩
          have hm : done.get ⟨i, h1⟩ ∈ q' ++ done := List.mem_append_right _ (List.get_mem _ _)
          rw [hold3 _ (fun he => huq (he ▸ hm)), hold2 _ (fun he => hdq (he ▸ hm))]
          exact hr
        simp only [a1, Outcome.ok.injEq, exists_eq_left', b1, Outcome.pure_eq] at h
        subst h
        left
        have base : ((un :: q' ++ [dn]) ++ done).Perm (un :: dn :: (q' ++ done)) := by
          refine List.Perm.cons un ?_
          show ((q' ++ [dn]) ++ done).Perm (dn :: (q' ++ done))
          rw [List.append_assoc]
          exact List.perm_middle
        have acc : Accounts t3 (un :: q' ++ [dn]) done sols := by
          refine ⟨base.nodup_iff.2 ?_, fun m => ?_, hshow3⟩
          · rw [List.nodup_cons, List.nodup_cons, List.mem_cons]
            exact ⟨fun h => h.elim hund huq, hdq, hnd'⟩
          · rw [hleaf3, base.mem_iff, List.mem_cons, List.mem_cons]
        have swap : (un :: q' ++ [dn]).Perm (dn :: q' ++ [un]) := by
          refine ((List.perm_append_singleton dn (un :: q')).trans (List.Perm.swap un dn q')).trans ?_
          exact (List.perm_append_singleton un (dn :: q')).symm
        have inv : ∀ l : List Nat, (un :: q' ++ [dn]).Perm l →
            TreeInv d.lower.length (l.map (fun n => (n : Int))) tree3 t3 l := by
          intro l hl
          have := acc.perm hl
          exact ⟨⟨st3, b2⟩, rfl, (List.nodup_append.1 this.nodup).1,
            fun m hm => (this.leaf m).2 (List.mem_append_left _ hm), b3⟩
        cases up with
        | true =>
          refine ⟨_, rfl, sols, hnan, hperm, t3, un :: q' ++ [dn], done, ?_, acc⟩
          have := inv _ (List.Perm.refl _)
          simpa using this
        | false =>
          refine ⟨_, rfl, sols, hnan, hperm, t3, dn :: q' ++ [un], done, ?_, acc.perm swap⟩
          have := inv _ swap
          simpa using this

theorem reach_accounted {o : Oracle W} {d : MipData} {prm : Params} {w : W} (hd : DataOk d)
    (hp : PrimalShape o d.lower.length) {s : State W} (h : Reach o d prm (initial w) s) :
    ∃ sols, Accounted d s sols := by
  induction h with
  | refl => exact ⟨[], accounted_initial d w⟩
  | step _ hit ih =>
    obtain ⟨sols, ih⟩ := ih
    exact (accounted_step hd hp ih).1 _ hit

/-- A tree with a node has a leaf: a deepest node. -/
theorem exists_leaf {tree : MipTree} {t : ATree} (h : Rel tree t) (hne : ∃ n, t.Live n) : ∃ n, t.Leaf n := by
  classical
  obtain ⟨n, hn⟩ := hne
  obtain ⟨m, hm, hmax⟩ := Set.exists_max_image {m | t.Live m} (fun m => (t m).elim 0 Rec.depth) h.live_finite ⟨n, hn⟩
  refine ⟨m, hm, ?_⟩
  rw [Set.eq_empty_iff_forall_notMem]
  rintro c ⟨r, hr, hp⟩
  have h1 := h.wf c r hr
  rw [hp] at h1
  obtain ⟨-, rp, hrp, hd⟩ := h1
  have h2 := hmax c ⟨r, hr⟩
  rw [hr, hrp] at h2
  simp only [Option.elim] at h2
  omega

/-- **C109**, the part that holds, for any LP solver, cut runner and branching rule. -/
theorem tree_left {o : Oracle W} {d : MipData} {prm : Params} {w : W} (hd : DataOk d)
    (hp : PrimalShape o d.lower.length) {n : Nat} {s : State W}
    (h : solveFuel o d prm n (initial w) = some (.ok s)) :
    (∃ (leaves : List Nat) (sols : List Solution), leaves.Nodup ∧ (∀ n, n ∈ leaves ↔ s.tree.ReadableLeaf n) ∧
      sols.Perm s.result.recorded ∧
      List.Forall₂ (fun (n : Nat) sol => ∃ nd, s.tree.node n = .ok nd ∧ nd.lpObjective = sol.objective) leaves sols) ∧
    (s.tree.isEmpty = true ↔ s.result.best = {} ∧ s.result.additional = []) ∧ s.queue = [] := by
  obtain ⟨s₁, hr, h⟩ := solveFuel_some h
  obtain ⟨sols, hacc⟩ := reach_accounted hd hp hr
  rcases h with ⟨s₂, h1, h2⟩ | ⟨m, -, h2⟩ | ⟨-, h2⟩ | ⟨-, h2⟩
  · have h2 := Outcome.ok.inj h2
    subst h2
    obtain ⟨sols', hqueue, hsane, hperm, st, t, done, hex, hacc'⟩ := (accounted_step hd hp hacc).2 _ h1
    have hR := hex.rel
    have hread : ∀ n : Nat, (∃ nd, s₂.tree.node (n : Int) = .ok nd) ↔ t.Live n := by
      intro n
      constructor
      · rintro ⟨nd, hn⟩
        by_contra hno
        have hnone : t n = none := by
          cases htn : t n with
          | none => rfl
          | some r => exact absurd ⟨r, htn⟩ hno
        have habort := (C13_node_reads_record hex).2 (n : Int) (fun m hm => by
          have : n = m := by omega
          subst this
          exact hnone)
        rw [habort] at hn; cases hn
      · rintro ⟨r, hr⟩
        obtain ⟨nd, hnd, -⟩ := (C13_node_reads_record hex).1 n r hr
        exact ⟨nd, hnd⟩
    have hlf : ∀ n, t.Leaf n ↔ s₂.tree.ReadableLeaf n := by
      intro n
      unfold ATree.Leaf MipTree.ReadableLeaf
      rw [hread n]
      refine and_congr_right fun hn => ?_
      rw [(C14_open_children_and_empty hex).1 n hn]
      simp only [Outcome.ok.injEq, Nat.cast_eq_zero]
      exact (Set.ncard_eq_zero (hR.children_finite n)).symm
    refine ⟨⟨done, sols', by simpa using hacc'.nodup, fun n => ?_, hperm, ?_⟩, ?_, hqueue⟩
    · rw [← hlf n, hacc'.leaf n]; simp
    · refine hacc'.shows.imp ?_
      rintro n sol ⟨r, hr, ho⟩
      obtain ⟨nd, hnd, -, -, -, -, -, hob, -⟩ := (C13_node_reads_record hex).1 n r hr
      exact ⟨nd, hnd, by rw [hob, ho]⟩
    · have hrec : s₂.result.best = {} ∧ s₂.result.additional = [] ↔ s₂.result.recorded = [] := by
        unfold SolveResult.recorded
        constructor
        · rintro ⟨h1, h2⟩
          rw [h1, h2]; rfl
        · intro h
          split at h
          · rename_i hi
            exact ⟨hsane.2 hi, h⟩
          · cases h
      show s₂.tree.isEmpty = true ↔ s₂.result.best = {} ∧ s₂.result.additional = []
      rw [hrec, (C14_open_children_and_empty hex).2]
      constructor
      · intro hno
        have hd0 : done = [] := by
          rw [List.eq_nil_iff_forall_not_mem]
          intro m hm
          exact hno m ((hacc'.leaf m).2 (by simpa using hm)).1
        have : sols' = [] := by
          have hl := hacc'.shows.length_eq
          rw [hd0] at hl
          exact List.length_eq_zero_iff.1 hl.symm
        rw [this] at hperm
        exact hperm.nil_eq.symm
      · intro hrec n hn
        have : sols' = [] := by
          have : sols'.Perm [] := by rw [← hrec]; exact hperm
          exact this.eq_nil
        have hd0 : done = [] := by
          have hl := hacc'.shows.length_eq
          rw [this] at hl
          exact List.length_eq_zero_iff.1 hl
        obtain ⟨m, hm⟩ := exists_leaf hR ⟨n, hn⟩
        have := (hacc'.leaf m).1 hm
        rw [hd0] at this
        simp at this
  all_goals cases h2

end Solver

namespace Program

open Setup Glop

/-- **C109**, the part that holds.  For every well-formed problem, all parameters that `Create` takes, with and without cuts, both LP
interfaces and whatever LP code, right or wrong: if `Solve` returns OK, the nodes of the tree without open children are
one for each solution in the result, and show the objective value of that solution.  All other branches of the tree have
been reclaimed; `TreeIsEmpty()` holds if there is no solution.  Missing is that it holds whenever the search has ended
(`C109_not_empty_violated`). -/
theorem C109_leaves_partial {e : Engine} {x : External} {p : Problem} (hp : p.WellFormed) {user : ParamsMsg}
    {c : Created} (h : create x p user = .ok c) {fuel : Nat} {s : Solver.State (Runner World)}
    (hs : solve e c fuel = some (.ok s)) :
    (∃ (leaves : List Nat) (sols : List Solution), leaves.Nodup ∧ (∀ n, n ∈ leaves ↔ s.tree.ReadableLeaf n) ∧
      sols.Perm s.result.recorded ∧
      List.Forall₂ (fun (n : Nat) sol => ∃ nd, s.tree.node n = .ok nd ∧ nd.lpObjective = sol.objective) leaves sols) ∧
    (s.tree.isEmpty = true ↔ s.result.best = {} ∧ s.result.additional = []) ∧ s.queue = [] := by
  obtain ⟨hd, h₀⟩ := created_refines hp h
  have hg : Good (start c.lpi).program { world := { lp := start c.lpi } } := Extends.refl _
  have hlen₀ : (start c.lpi).program.cols.length = c.data.lower.length := by
    rw [h₀.numCols, hd.lower, List.length_map]; rfl
  have hshape := primalShape (e := e) (c := c) (Good' := Good (start c.lpi).program) (fun _ h => h)
  rw [hlen₀] at hshape
  have hrun : Solver.solveFuel (Solver.guard (oracle e c) (Good (start c.lpi).program)) c.data (params c) fuel
      (Solver.initial { world := { lp := start c.lpi } }) = some (.ok s) := by
    rw [Solver.guard_solveFuel keeps_good _ _ (by exact hg)]
    exact hs
  exact Solver.tree_left (Solver.dataOk_of_represents hd) hshape hrun

/-- **C109 fails.**  On every well-formed problem with a feasible point, finite bounds of the integer variables and an objective
bounded on the relaxation, with Glop and without cuts: `Solve` explores the whole tree and returns OK, but `TreeIsEmpty()`
is false, because the nodes with integral LP optima are never closed. -/
theorem C109_not_empty_violated (p : Problem) (hp : p.WellFormed) (hf : FiniteIntegers p) (hB : Bounded p)
    (hfeas : ∃ y, p.Feasible y) :
    ∀ (x : External) (user : ParamsMsg) (lp : LpParameters), LpWins user.lp lp → GlopTakes lp →
      (∃ k ≤ 0, user.runner.bind (·.maxIterations) = some k) →
      (∀ s, user.branching.bind (·.rule) ≠ some (.random s)) →
      0 ≤ user.integralityTolerance.getD (1 / 10 ^ 6) →
      ∃ c, create x p user = .ok c ∧ ∀ e : Engine, e.Right → e.GlopReturns →
        ∃ s, solve e c (iterationBound p) = some (.ok s) ∧ s.queue = [] ∧ s.tree.isEmpty = false := by
  intro x user lp hlp ht hi hr htol
  obtain ⟨c, hc, hsol⟩ := C78_total_correctness p hp hf hB x user lp hlp ht hi hr htol
  refine ⟨c, hc, fun e he hret => ?_⟩
  obtain ⟨y, hy⟩ := hfeas
  rcases hsol e he hret with ⟨-, hno⟩ | ⟨s, hs, -, hopt⟩
  · exact absurd hy (hno y)
  · obtain ⟨-, hemp, hq⟩ := C109_leaves_partial hp hc hs
    refine ⟨s, hs, hq, ?_⟩
    rw [← Bool.not_eq_true, hemp]
    exact fun h => (hopt y hy).1 h.1

/-- The hypotheses of `C109_not_empty_violated` and of `C109_leaves_partial` are met together, in a run that finds a solution. -/
example : ∃ c s, create exExternal exProblem exUser = .ok c ∧ solve perfect c (iterationBound exProblem) = some (.ok s) ∧
    s.tree.isEmpty = false := by
  obtain ⟨h1, h2, h3, h4⟩ := exProblem_spec
  obtain ⟨c, hc, hs⟩ := C109_not_empty_violated exProblem h1 h2 h3 h4 exExternal exUser _ (lpWins _)
    (by refine ⟨⟨?_, ?_, ?_, ?_, ?_, ?_, ?_, ?_⟩, rfl, ?_, ?_, rfl, rfl⟩ <;> simp [exUser, LpMsg.read, ToleranceOk])
    ⟨0, le_refl _, rfl⟩ (by intro s; simp [exUser]) (by norm_num [exUser])
  obtain ⟨s, hs, -, hne⟩ := hs perfect perfect_spec.1 perfect_spec.2
  exact ⟨c, s, hc, hs, hne⟩

end Program
end MiniMip
