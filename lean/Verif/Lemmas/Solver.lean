import Verif.Model.Solver
import Verif.Props.MipTreeColumns
import Verif.Props.MipData

/-!
# The branch-and-bound loop as a transformation of boxes

Every queued node stands for a box: the conjunction of the branching decisions on its path.
`StepSpec` says what one iteration does to the list of boxes.
-/

namespace MiniMip
namespace Solver

open MipTree
open MipTree.ATree

/-- A condition on the value of each column. -/
abbrev Box := Nat → ℚ → Prop

/-- The branching decisions on the path to node `n`. -/
def boxOf (t : ATree) (n : Nat) : Box := fun j y =>
  ∀ m rm, t.Anc m n → t m = some rm → rm.LowerAt j y ∧ rm.UpperAt j y

/-- Records written by the solver: no implied bounds, an existing column, a finite value. -/
def PlainRecs (nc : Nat) (t : ATree) : Prop :=
  ∀ n r, t n = some r → r.lower = [] ∧ r.upper = [] ∧
    (r.parent ≠ none → 0 ≤ r.var ∧ r.var < nc ∧ ∃ v, r.value = .fin v)

/-- The invariant linking the queue and the tree: the queued nodes are distinct live
leaves. -/
structure TreeInv (nc : Nat) (queue : List Int) (tree : MipTree) (t : ATree) (q : List Nat) : Prop where
  exec : ∃ st, Exec st tree t
  queue : queue = q.map (fun n => (n : Int))
  nodup : q.Nodup
  leaf : ∀ n ∈ q, t.Live n ∧ t.Children n = ∅
  recs : PlainRecs nc t

/-- The invariant, with the queue seen as a list of boxes. -/
def Sim (nc : Nat) (queue : List Int) (tree : MipTree) (bs : List Box) : Prop :=
  ∃ t q, TreeInv nc queue tree t q ∧ bs = q.map (boxOf t)

theorem PlainRecs.inRange {nc : Nat} {t : ATree} (h : PlainRecs nc t) {n : Nat} {r : Rec}
    (hr : t n = some r) : r.InRange nc := by
  obtain ⟨h1, h2, h3⟩ := h n r hr
  refine ⟨by simp [h1, h2], fun hp => ?_⟩
  obtain ⟨h4, h5, v, h6⟩ := h3 hp
  exact ⟨h4, h5, by simp [h6]⟩

theorem Rec.plainRecs_init (nc : Nat) : PlainRecs nc ATree.init := by
  intro n r hr
  unfold ATree.init at hr
  split at hr
  · simp only [Option.some.injEq] at hr; subst hr; simp
  · cases hr

theorem boxOf_init (j : Nat) (y : ℚ) : boxOf ATree.init 0 j y := by
  intro m rm hm hrm
  have h0 : ATree.init 0 = some ⟨none, 0, -1, false, .fin 0, .ninf, [], []⟩ := by simp [ATree.init]
  obtain rfl := (anc_noparent h0 rfl m).1 hm
  rw [h0] at hrm; simp only [Option.some.injEq] at hrm; subst hrm
  simp [Rec.LowerAt, Rec.UpperAt]

theorem sim_init (nc : Nat) : Sim nc [0] MipTree.init [boxOf ATree.init 0] := by
  refine ⟨ATree.init, [0], ⟨⟨_, Exec.init⟩, by simp, by simp, ?_, Rec.plainRecs_init nc⟩, by simp⟩
  intro n hn
  simp only [List.mem_singleton] at hn; subst hn
  exact ⟨⟨_, by simp [ATree.init]; rfl⟩, children_empty_of_init 0⟩

/-- The root's box is everything. -/
theorem boxOf_root {st s t} (h : Exec st s t) {nc : Nat} (hp : PlainRecs nc t) (h0 : t.Live 0)
    (j : Nat) (y : ℚ) : boxOf t 0 j y := by
  obtain ⟨r, hr⟩ := h0
  have hpar : r.parent = none := by
    have := h.rel.wf 0 r hr
    cases hq : r.parent with
    | none => rfl
    | some p => rw [hq] at this; simp at this
  intro m rm hm hrm
  obtain rfl := (anc_noparent hr hpar m).1 hm
  rw [hr] at hrm; simp only [Option.some.injEq] at hrm; subst hrm
  obtain ⟨h1, h2, -⟩ := hp 0 r hr
  simp [Rec.LowerAt, Rec.UpperAt, h1, h2, hpar]

/-! ## How the tree calls change the boxes -/

/-- If every record on the paths reads the same up to the LP value, ancestors and boxes are
the same. -/
theorem anc_congr {t t' : ATree} {n : Nat}
    (h : ∀ m, t.Anc m n → ∃ r r', t m = some r ∧ t' m = some r' ∧ r'.parent = r.parent)
    (m : Nat) : t.Anc m n → t'.Anc m n := by
  intro hm
  unfold ATree.Anc at hm ⊢
  induction hm using Relation.ReflTransGen.head_induction_on with
  | refl => exact .refl
  | @head a b hab hbn ih =>
    refine Relation.ReflTransGen.head ?_ ih
    obtain ⟨r, r', h1, h2, h3⟩ := h b hbn
    obtain ⟨rb, hrb, hpar⟩ := hab
    rw [h1] at hrb; simp only [Option.some.injEq] at hrb; subst hrb
    exact ⟨r', h2, by rw [h3, hpar]⟩

/-- Closing a leaf keeps every other leaf, with its path. -/
theorem close_keeps {t : ATree} {n m : Nat} (hm : t.Live m) (hleaf : t.Children m = ∅)
    (hne : m ≠ n) {a : Nat} (ha : t.Anc a m) : ¬ t.Removed n a := by
  rintro ⟨-, h2⟩
  have h3 := h2 m hm ha
  unfold ATree.Anc at h3
  rcases Relation.ReflTransGen.cases_head h3 with rfl | ⟨c, hc, -⟩
  · exact hne rfl
  · have : c ∈ t.Children m := hc
    rw [hleaf] at this; exact this

theorem anc_live {s t} (h : MipTree.Rel s t) {a n : Nat} (hn : t.Live n) (ha : t.Anc a n) : t.Live a := by
  unfold ATree.Anc at ha
  induction ha using Relation.ReflTransGen.head_induction_on with
  | refl => exact hn
  | @head a b hab hbn ih =>
    obtain ⟨r, hr, hp⟩ := hab
    have := h.wf b r hr
    rw [hp] at this; simp only at this
    obtain ⟨-, rp, hrp, -⟩ := this
    exact ⟨rp, hrp⟩

/-- General transfer: if `t'` has, for the ancestors of `n` in `t`, the same records up to
the LP value, then the box of `n` is unchanged. -/
theorem boxOf_congr {s t s' t'} (h : MipTree.Rel s t) (h' : MipTree.Rel s' t') {n : Nat} (hn : t.Live n)
    (hk : ∀ a r, t.Anc a n → t a = some r → ∃ r', t' a = some r' ∧ r'.parent = r.parent ∧
      r'.var = r.var ∧ r'.down = r.down ∧ r'.value = r.value ∧ r'.lower = r.lower ∧
      r'.upper = r.upper) : boxOf t' n = boxOf t n := by
  have hfwd : ∀ a, t.Anc a n → t'.Anc a n := anc_congr (fun m hm => by
    obtain ⟨r, hr⟩ := anc_live h hn hm
    obtain ⟨r', h1, h2, -⟩ := hk m r hm hr
    exact ⟨r, r', hr, h1, h2⟩)
  have hbwd : ∀ a, t'.Anc a n → t.Anc a n := by
    intro a ha
    unfold ATree.Anc at ha ⊢
    induction ha using Relation.ReflTransGen.head_induction_on with
    | refl => exact .refl
    | @head a b hab hbn ih =>
      refine Relation.ReflTransGen.head ?_ ih
      obtain ⟨rb, hrb, hpar⟩ := hab
      obtain ⟨r, hr⟩ := anc_live h hn ih
      obtain ⟨r', h1, h2, -⟩ := hk b r ih hr
      rw [h1] at hrb; simp only [Option.some.injEq] at hrb; subst hrb
      exact ⟨r, hr, by rw [← h2, hpar]⟩
  funext j y
  apply propext
  unfold boxOf
  constructor
  · intro hb m rm hm hrm
    obtain ⟨r', h1, h2, h3, h4, h5, h6, h7⟩ := hk m rm hm hrm
    have := hb m r' (hfwd m hm) h1
    simpa [Rec.LowerAt, Rec.UpperAt, h2, h3, h4, h5, h6, h7] using this
  · intro hb m rm hm hrm
    have hm' := hbwd m hm
    obtain ⟨r, hr⟩ := anc_live h hn hm'
    obtain ⟨r', h1, h2, h3, h4, h5, h6, h7⟩ := hk m r hm' hr
    rw [h1] at hrm; simp only [Option.some.injEq] at hrm; subst hrm
    have := hb m r hm' hr
    simpa [Rec.LowerAt, Rec.UpperAt, h2, h3, h4, h5, h6, h7] using this

/-- Closing the popped leaf. -/
theorem close_step {nc : Nat} {tree : MipTree} {t : ATree} {n : Nat} {q : List Nat}
    {st} (hex : Exec st tree t) (hn : t.Live n) (hleaf : t.Children n = ∅) (hn0 : n ≠ 0)
    (hrecs : PlainRecs nc t)
    (hq : ∀ m ∈ q, m ≠ n ∧ t.Live m ∧ t.Children m = ∅) (hnd : q.Nodup) :
    ∃ tree' t', tree.close n = .ok tree' ∧
      TreeInv nc (q.map (fun n => (n : Int))) tree' t' q ∧ q.map (boxOf t') = q.map (boxOf t) := by
  have hl : t.Legal (.close n) := ⟨hn, hn0, Or.inl (by rw [hleaf]; simp)⟩
  obtain ⟨tree', h1, h2, -⟩ := hex.rel.close hl
  have hstep : tree.step (.close n) = .ok (tree', none) := by simp [MipTree.step, h1]
  have hex' := Exec.step hex hl hstep
  have hkeep : ∀ m ∈ q, ∀ a, t.Anc a m → (t.apply (.close n) none) a = t a := by
    intro m hm a ha
    obtain ⟨e1, e2, e3⟩ := hq m hm
    simp [ATree.apply, close_keeps e2 e3 e1 ha]
  have hsub : ∀ m r, (t.apply (.close n) none) m = some r → t m = some r := by
    intro m r hr
    simp only [ATree.apply] at hr
    split at hr
    · cases hr
    · exact hr
  refine ⟨tree', _, h1, ⟨⟨_, hex'⟩, rfl, hnd, ?_, ?_⟩, ?_⟩
  · intro m hm
    obtain ⟨e1, ⟨r, hr⟩, e3⟩ := hq m hm
    refine ⟨⟨r, by rw [hkeep m hm m .refl]; exact hr⟩, ?_⟩
    rw [Set.eq_empty_iff_forall_notMem]
    rintro c ⟨rc, hrc, hpc⟩
    have : c ∈ t.Children m := ⟨rc, hsub c rc hrc, hpc⟩
    rw [e3] at this; exact this
  · intro m r hr; exact hrecs m r (hsub m r hr)
  · apply List.map_congr_left
    intro m hm
    obtain ⟨e1, e2, e3⟩ := hq m hm
    refine boxOf_congr hex.rel h2 e2 ?_
    intro a r ha hr
    exact ⟨r, by rw [hkeep m hm a ha]; exact hr, rfl, rfl, rfl, rfl, rfl, rfl⟩

/-- Storing the LP value of the popped leaf. -/
theorem setLp_step {nc : Nat} {tree : MipTree} {t : ATree} {n : Nat} (obj : Dbl)
    {st} (hex : Exec st tree t) (hn : t.Live n) (hleaf : t.Children n = ∅)
    (hrecs : PlainRecs nc t) :
    ∃ tree' t', tree.setLpData n obj = .ok tree' ∧ (∃ st', Exec st' tree' t') ∧ PlainRecs nc t' ∧
      (∀ m, t.Live m → t'.Live m) ∧ (∀ m, t'.Children m = t.Children m) ∧
      ∀ m, t.Live m → boxOf t' m = boxOf t m := by
  have hl : t.Legal (.setLp n obj) := ⟨hn, by rw [hleaf]; simp⟩
  obtain ⟨tree', h1, h2, -⟩ := hex.rel.setLp obj hl
  have hstep : tree.step (.setLp n obj) = .ok (tree', none) := by simp [MipTree.step, h1]
  have hex' := Exec.step hex hl hstep
  have hfwd : ∀ m r, t m = some r → ∃ r', (t.apply (.setLp n obj) none) m = some r' ∧
      r'.parent = r.parent ∧ r'.var = r.var ∧ r'.down = r.down ∧ r'.value = r.value ∧
      r'.lower = r.lower ∧ r'.upper = r.upper := by
    intro m r hr
    simp only [ATree.apply, hr]
    split
    · exact ⟨_, rfl, rfl, rfl, rfl, rfl, rfl, rfl⟩
    · exact ⟨_, rfl, rfl, rfl, rfl, rfl, rfl, rfl⟩
  have hbwd : ∀ m r', (t.apply (.setLp n obj) none) m = some r' → ∃ r, t m = some r ∧
      r'.parent = r.parent ∧ r'.var = r.var ∧ r'.value = r.value ∧
      r'.lower = r.lower ∧ r'.upper = r.upper := by
    intro m r' hr
    simp only [ATree.apply] at hr
    split at hr
    · obtain ⟨r0, h0, rfl⟩ := Option.map_eq_some_iff.1 hr
      exact ⟨r0, h0, rfl, rfl, rfl, rfl, rfl⟩
    · exact ⟨r', hr, rfl, rfl, rfl, rfl, rfl⟩
  refine ⟨tree', _, h1, ⟨_, hex'⟩, ?_, ?_, ?_, ?_⟩
  · intro m r' hr
    obtain ⟨r, e1, e2, e3, e4, e5, e6⟩ := hbwd m r' hr
    rw [e2, e3, e4, e5, e6]; exact hrecs m r e1
  · rintro m ⟨r, hr⟩
    obtain ⟨r', e1, -⟩ := hfwd m r hr
    exact ⟨r', e1⟩
  · intro m
    ext c
    constructor
    · rintro ⟨rc, hrc, hpc⟩
      obtain ⟨r, e1, e2, -⟩ := hbwd c rc hrc
      exact ⟨r, e1, by rw [← e2, hpc]⟩
    · rintro ⟨rc, hrc, hpc⟩
      obtain ⟨r, e1, e2, -⟩ := hfwd c rc hrc
      exact ⟨r, e1, by rw [e2, hpc]⟩
  · intro m hm
    exact boxOf_congr hex.rel h2 hm (fun a r _ hr => hfwd a r hr)

/-- Adding a child to a node with at most one child. -/
theorem add_step {nc : Nat} {tree : MipTree} {t : ATree} {p : Nat} {var : Int} {down : Bool}
    {v : ℚ} {st} (hex : Exec st tree t) (hp : t.Live p) (hc : (t.Children p).ncard ≤ 1)
    (hrecs : PlainRecs nc t) (hvar : 0 ≤ var ∧ var < nc) :
    ∃ tree' t' c, tree.addNode p var down (.fin v) = .ok (tree', ((c : Nat) : Int)) ∧
      (∃ st', Exec st' tree' t') ∧ PlainRecs nc t' ∧ ¬ t.Live c ∧ t'.Live c ∧
      t'.Children c = ∅ ∧ (∀ m, t.Live m → t'.Live m) ∧
      (∀ m, m ≠ p → t'.Children m = t.Children m) ∧ t'.Children p = insert c (t.Children p) ∧
      (∀ m, t.Live m → boxOf t' m = boxOf t m) ∧
      boxOf t' c = fun j y => boxOf t p j y ∧
        (var = j → if down then y ≤ ⌊v⌋ else (⌈v⌉ : ℚ) ≤ y) := by
  have hl : t.Legal (.add p var down (.fin v)) := ⟨hp, hc⟩
  obtain ⟨tree', c, h1, h2, h3, -⟩ := hex.rel.add hl
  have hstep : tree.step (.add p var down (.fin v)) = .ok (tree', some (c : Int)) := by
    simp [MipTree.step, h1]
  have hex' := Exec.step hex hl hstep
  obtain ⟨rp, hrp⟩ := hp
  have hcp : c ≠ p := by rintro rfl; rw [h2] at hrp; cases hrp
  have hnew : (t.apply (.add p var down (.fin v)) (some (c : Int))) c =
      some ⟨some p, rp.depth + 1, var, down, .fin v, .ninf, [], []⟩ := by simp [ATree.apply, hrp]
  have hold : ∀ m, m ≠ c → (t.apply (.add p var down (.fin v)) (some (c : Int))) m = t m := by
    intro m hm; simp [ATree.apply, hm]
  have hlive : ∀ m, t.Live m → m ≠ c := by
    rintro m ⟨r, hr⟩ rfl; rw [h2] at hr; cases hr
  have hbox : ∀ m, t.Live m → boxOf (t.apply (.add p var down (.fin v)) (some (c : Int))) m =
      boxOf t m := by
    intro m hm
    refine boxOf_congr hex.rel h3 hm ?_
    intro a r _ hr
    exact ⟨r, by rw [hold a (hlive a ⟨r, hr⟩)]; exact hr, rfl, rfl, rfl, rfl, rfl, rfl⟩
  have hchild : ∀ m x, x ∈ ATree.Children (t.apply (.add p var down (.fin v)) (some (c : Int))) m ↔
      (x = c ∧ m = p) ∨ x ∈ t.Children m := by
    intro m x
    constructor
    · rintro ⟨r, hr, hpar⟩
      by_cases hxc : x = c
      · subst hxc
        rw [hnew] at hr; simp only [Option.some.injEq] at hr; subst hr
        simp only [Option.some.injEq] at hpar
        exact Or.inl ⟨rfl, hpar.symm⟩
      · rw [hold x hxc] at hr; exact Or.inr ⟨r, hr, hpar⟩
    · rintro (⟨rfl, rfl⟩ | ⟨r, hr, hpar⟩)
      · exact ⟨_, hnew, rfl⟩
      · exact ⟨r, by rw [hold x (hlive x ⟨r, hr⟩)]; exact hr, hpar⟩
  refine ⟨tree', _, c, h1, ⟨_, hex'⟩, ?_, ?_, ⟨_, hnew⟩, ?_, ?_, ?_, ?_, hbox, ?_⟩
  · intro m r hr
    by_cases hmc : m = c
    · subst hmc
      rw [hnew] at hr; simp only [Option.some.injEq] at hr; subst hr
      exact ⟨rfl, rfl, fun _ => ⟨hvar.1, hvar.2, v, rfl⟩⟩
    · rw [hold m hmc] at hr; exact hrecs m r hr
  · rintro ⟨r, hr⟩; rw [h2] at hr; cases hr
  · rw [Set.eq_empty_iff_forall_notMem]
    intro x hx
    rcases (hchild c x).1 hx with ⟨-, h⟩ | ⟨r, hr, hpar⟩
    · exact hcp h
    · have := hex.rel.wf x r hr
      rw [hpar] at this; simp only at this
      obtain ⟨-, rc, hrc, -⟩ := this
      rw [h2] at hrc; cases hrc
  · rintro m ⟨r, hr⟩
    exact ⟨r, by rw [hold m (hlive m ⟨r, hr⟩)]; exact hr⟩
  · intro m hm
    ext x
    rw [hchild m x]
    simp [hm]
  · ext x
    rw [hchild p x]
    simp
  · have hpo : ATree.ParentOf (t.apply (.add p var down (.fin v)) (some (c : Int))) p c :=
      ⟨_, hnew, rfl⟩
    rw [← hbox p ⟨rp, hrp⟩]
    funext j y
    apply propext
    unfold boxOf
    have hself : (Rec.LowerAt ⟨some p, rp.depth + 1, var, down, .fin v, .ninf, [], []⟩ j y ∧
        Rec.UpperAt ⟨some p, rp.depth + 1, var, down, .fin v, .ninf, [], []⟩ j y) ↔
        (var = j → if down then y ≤ ⌊v⌋ else (⌈v⌉ : ℚ) ≤ y) := by
      cases down <;> simp [Rec.LowerAt, Rec.UpperAt, Dbl.floor, Dbl.ceil]
    constructor
    · intro h
      exact ⟨fun m rm hm hrm => h m rm ((anc_parent hpo m).2 (Or.inr hm)) hrm,
        hself.1 (h c _ .refl hnew)⟩
    · rintro ⟨h4, h5⟩ m rm hm hrm
      rcases (anc_parent hpo m).1 hm with rfl | hm
      · rw [hnew] at hrm; simp only [Option.some.injEq] at hrm; subst hrm
        exact hself.2 h5
      · exact h4 m rm hm hrm

/-! ## One iteration -/

/-- Taking one element from the back or from the front. -/
def PopSpec {α : Type} (backjump : Bool) (l : List α) (x : α) (l' : List α) : Prop :=
  if backjump then l = l' ++ [x] else l = x :: l'

theorem PopSpec.perm {α : Type} {b : Bool} {l l' : List α} {x : α} (h : PopSpec b l x l') :
    l.Perm (x :: l') := by
  unfold PopSpec at h
  split at h
  · rw [h]; exact List.perm_append_comm
  · rw [h]

theorem PopSpec.map {α β : Type} {b : Bool} {l l' : List α} {x : α} (h : PopSpec b l x l')
    (f : α → β) : PopSpec b (l.map f) (f x) (l'.map f) := by
  unfold PopSpec at h ⊢
  split at h <;> simp_all

theorem pop_spec (b : Bool) (q : List Nat) :
    (pop b (q.map (fun n => (n : Int))) = none ∧ q = []) ∨
    ∃ (n : Nat) (q' : List Nat), pop b (q.map (fun n => (n : Int))) = some ((n : Int), q'.map (fun n => (n : Int))) ∧
      PopSpec b q n q' := by
  cases b with
  | false =>
    cases q with
    | nil => left; exact ⟨rfl, rfl⟩
    | cons n q' => right; exact ⟨n, q', rfl, rfl⟩
  | true =>
    rcases List.eq_nil_or_concat q with rfl | ⟨q', n, rfl⟩
    · left; exact ⟨rfl, rfl⟩
    · right
      refine ⟨n, q', ?_, by simp [PopSpec]⟩
      simp [pop]

/-- The retrieved bounds admit exactly the values admitted by the root bounds and by the
box. -/
def BoundsSpec (d : MipData) (b : Box) (lb ub : List Dbl) : Prop :=
  lb.length = d.lower.length ∧ ub.length = d.upper.length ∧
  ∀ j y, (AboveAt lb j y ∧ BelowAt ub j y) ↔
    (AboveAt d.lower j y ∧ BelowAt d.upper j y ∧ b j y)

/-- What the loop needs of the data: as many lower as upper bounds, integer variables are
columns. -/
structure DataOk (d : MipData) : Prop where
  len : d.lower.length = d.upper.length
  ints : ∀ j ∈ d.integerVariables, 0 ≤ j ∧ j < d.lower.length

theorem dataOk_of_represents {d : MipData} {p : Problem} (h : d.Represents p) : DataOk d := by
  refine ⟨by rw [h.lower, h.upper]; simp, ?_⟩
  intro j hj
  obtain ⟨n, v, hv, -, rfl⟩ := (h.integers j).1 hj
  have := (List.getElem?_eq_some_iff.1 hv).1
  rw [h.lower]; simp only [List.length_map]; omega

/-- The box of a child. -/
def childBox (b : Box) (var : Nat) (v : ℚ) (down : Bool) : Box := fun j y =>
  b j y ∧ (var = j → if down then y ≤ ⌊v⌋ else (⌈v⌉ : ℚ) ≤ y)

/-- What an iteration that returns normally does, in terms of boxes. -/
inductive StepSpec {W : Type} (o : Oracle W) (d : MipData) (prm : Params) (s : State W)
    (bs : List Box) : Step W → Prop
  /-- nothing left -/
  | empty : bs = [] → StepSpec o d prm s bs (.stop s)
  /-- the LP of a node (not the root) is not optimal: its box is dropped -/
  | infeasible {b bs' lb ub w s'} : PopSpec s.backjump bs b bs' → BoundsSpec d b lb ub →
      solveNode o d lb ub s.world = .ok w → o.isOptimal w = false →
      Sim d.lower.length s'.queue s'.tree bs' → s'.world = w → s'.result = s.result →
      StepSpec o d prm s bs (.again s')
  /-- the LP optimum of a node is integral: it is recorded and the box is dropped; at the
  root (whose box is everything) the loop is left -/
  | integral {b bs' lb ub w values s' res} : PopSpec s.backjump bs b bs' → BoundsSpec d b lb ub →
      solveNode o d lb ub s.world = .ok w → o.isOptimal w = true →
      o.primal w = .ok values → d.solutionIsIntegral values prm.tol = .ok true →
      Sim d.lower.length s'.queue s'.tree bs' → s'.world = w →
      s'.result = s.result.addSolution ⟨values, o.objective w⟩ →
      (res = .again s' ∨ (res = .stop s' ∧ ∀ j y, b j y)) →
      StepSpec o d prm s bs res
  /-- otherwise the box is replaced by its two children -/
  | branch {b bs' lb ub w w' values col up v s'} : PopSpec s.backjump bs b bs' →
      BoundsSpec d b lb ub →
      solveNode o d lb ub s.world = .ok w → o.isOptimal w = true →
      o.primal w = .ok values → d.solutionIsIntegral values prm.tol = .ok false →
      o.branch w = .ok (w', ((col : Nat) : Int), up) → values[col]? = some v →
      Sim d.lower.length s'.queue s'.tree
        (childBox b col v (!up) :: bs' ++ [childBox b col v up]) →
      s'.world = w' → s'.result = s.result →
      StepSpec o d prm s bs (.again s')

theorem orAbort_eq_ok {α : Type} {x : Outcome α} {a : α} : x.orAbort = .ok a ↔ x = .ok a := by
  cases x <;> simp [Outcome.orAbort]

/-- The popped node and the bounds retrieved for it. -/
theorem pop_node {nc : Nat} {queue : List Int} {tree : MipTree} {t : ATree} {q : List Nat}
    (h : TreeInv nc queue tree t q) (d : MipData) (hd : DataOk d) (hnc : nc = d.lower.length)
    {bj : Bool} {n : Nat} {q' : List Nat} (hpop : PopSpec bj q n q') :
    t.Live n ∧ t.Children n = ∅ ∧ q'.Nodup ∧ (∀ m ∈ q', m ≠ n ∧ t.Live m ∧ t.Children m = ∅) ∧
    ∃ lb ub, tree.retrieveLower n d.lower = .ok lb ∧ tree.retrieveUpper n d.upper = .ok ub ∧
      BoundsSpec d (boxOf t n) lb ub := by
  have hperm := hpop.perm
  have hnd : (n :: q').Nodup := hperm.nodup_iff.1 h.nodup
  have hn : n ∈ q := hperm.mem_iff.2 (by simp)
  have hlive := h.leaf n hn
  obtain ⟨st, hex⟩ := h.exec
  refine ⟨hlive.1, hlive.2, (List.nodup_cons.1 hnd).2, ?_, ?_⟩
  · intro m hm
    refine ⟨?_, h.leaf m (hperm.mem_iff.2 (by simp [hm]))⟩
    rintro rfl; exact (List.nodup_cons.1 hnd).1 hm
  · obtain ⟨lb, ub, h1, h2, h3, h4, h5⟩ := C17_retrieved_column hex hlive.1 d.lower d.upper hd.len
      (fun m rm _ hrm => by rw [← hnc]; exact h.recs.inRange hrm)
    refine ⟨lb, ub, h1, h2, h3, h4, fun j y => ?_⟩
    rw [(h5 j y).1, (h5 j y).2]
    unfold boxOf
    constructor
    · rintro ⟨⟨a, b⟩, c, e⟩
      exact ⟨a, c, fun m rm hm hrm => ⟨b m rm hm hrm, e m rm hm hrm⟩⟩
    · rintro ⟨a, b, c⟩
      exact ⟨⟨a, fun m rm hm hrm => (c m rm hm hrm).1⟩, b, fun m rm hm hrm => (c m rm hm hrm).2⟩

/-- The two children of the popped node, after its LP value has been stored. -/
theorem branch_step {nc : Nat} {tree : MipTree} {t : ATree} {n : Nat} {q : List Nat} {st}
    (hex : Exec st tree t) (hrecs : PlainRecs nc t) (hn : t.Live n) (hleaf : t.Children n = ∅)
    (hq : ∀ m ∈ q, m ≠ n ∧ t.Live m ∧ t.Children m = ∅) (hnd : q.Nodup)
    (col : Nat) (hcol : col < nc) (v : ℚ) :
    ∃ (tree1 tree2 : MipTree) (dn un : Nat), tree.addNode n (col : Int) true (.fin v) = .ok (tree1, (dn : Int)) ∧
      tree1.addNode n (col : Int) false (.fin v) = .ok (tree2, (un : Int)) ∧
      ∀ up : Bool, Sim nc (if up then (un : Int) :: q.map (fun n => (n : Int)) ++ [(dn : Int)]
          else (dn : Int) :: q.map (fun n => (n : Int)) ++ [(un : Int)]) tree2
        (childBox (boxOf t n) col v (!up) :: q.map (boxOf t) ++ [childBox (boxOf t n) col v up]) := by
  have hvar : (0 : Int) ≤ (col : Int) ∧ (col : Int) < nc := by omega
  obtain ⟨tree1, t1, dn, a1, ⟨st1, a2⟩, a3, a4, a5, a6, a7, a8, a9, a10, a11⟩ :=
    add_step (down := true) (v := v) hex hn (by rw [hleaf]; simp) hrecs hvar
  obtain ⟨tree2, t2, un, b1, ⟨st2, b2⟩, b3, b4, b5, b6, b7, b8, b9, b10, b11⟩ :=
    add_step (down := false) (v := v) a2 (a7 n hn) (by rw [a9, hleaf]; simp) a3 hvar
  refine ⟨tree1, tree2, dn, un, a1, b1, ?_⟩
  have hdnn : dn ≠ n := by rintro rfl; exact a4 hn
  have hund : un ≠ dn := by rintro rfl; exact b4 a5
  have hunn : un ≠ n := by rintro rfl; exact b4 (a7 _ hn)
  have hdq : dn ∉ q := fun hm => a4 (hq dn hm).2.1
  have huq : un ∉ q := fun hm => b4 (a7 _ (hq un hm).2.1)
  have ldn : t2.Live dn ∧ t2.Children dn = ∅ := ⟨b7 dn a5, by rw [b8 dn hdnn, a6]⟩
  have lun : t2.Live un ∧ t2.Children un = ∅ := ⟨b5, b6⟩
  have lq : ∀ m ∈ q, t2.Live m ∧ t2.Children m = ∅ := by
    intro m hm
    obtain ⟨e1, e2, e3⟩ := hq m hm
    exact ⟨b7 m (a7 m e2), by rw [b8 m e1, a8 m e1, e3]⟩
  have bq : q.map (boxOf t2) = q.map (boxOf t) := by
    apply List.map_congr_left
    intro m hm
    rw [b10 m (a7 m (hq m hm).2.1), a10 m (hq m hm).2.1]
  have bdn : boxOf t2 dn = childBox (boxOf t n) col v true := by
    rw [b10 dn a5, a11]
    funext j y
    simp [childBox]
  have bun : boxOf t2 un = childBox (boxOf t n) col v false := by
    rw [b11, a10 n hn]
    funext j y
    simp [childBox]
  intro up
  cases up with
  | true =>
    refine ⟨t2, un :: q ++ [dn], ⟨⟨st2, b2⟩, by simp, ?_, ?_, b3⟩, by simp [bq, bdn, bun]⟩
    · simp only [List.cons_append, List.nodup_cons, List.mem_append, List.mem_singleton]
      refine ⟨by rintro (h | h); exacts [huq h, hund h], ?_⟩
      rw [List.nodup_append]
      exact ⟨hnd, by simp, fun a ha b hb => by simp only [List.mem_singleton] at hb; subst hb; rintro rfl; exact hdq ha⟩
    · intro m hm
      simp only [List.cons_append, List.mem_cons, List.mem_append, List.not_mem_nil, or_false] at hm
      rcases hm with rfl | hm | rfl
      exacts [lun, lq m hm, ldn]
  | false =>
    refine ⟨t2, dn :: q ++ [un], ⟨⟨st2, b2⟩, by simp, ?_, ?_, b3⟩, by simp [bq, bdn, bun]⟩
    · simp only [List.cons_append, List.nodup_cons, List.mem_append, List.mem_singleton]
      refine ⟨by rintro (h | h); exacts [hdq h, hund h.symm], ?_⟩
      rw [List.nodup_append]
      exact ⟨hnd, by simp, fun a ha b hb => by simp only [List.mem_singleton] at hb; subst hb; rintro rfl; exact huq ha⟩
    · intro m hm
      simp only [List.cons_append, List.mem_cons, List.mem_append, List.not_mem_nil, or_false] at hm
      rcases hm with rfl | hm | rfl
      exacts [ldn, lq m hm, lun]

theorem vecGet_eq_ok {α : Type} {l : List α} {i : Int} {x : α} (h : vecGet l i = .ok x) :
    ∃ n : Nat, i = n ∧ l[n]? = some x := by
  unfold vecGet at h
  split at h
  · rename_i h0
    obtain ⟨n, rfl⟩ := Int.eq_ofNat_of_zero_le h0
    refine ⟨n, rfl, ?_⟩
    simp only [Int.toNat_natCast] at h
    split at h
    · rename_i y hy; simp only [Outcome.ok.injEq] at h; rw [hy, h]
    · cases h
  · cases h

/-- Primal solutions have a value per column. -/
def PrimalShape {W : Type} (o : Oracle W) (nc : Nat) : Prop :=
  ∀ w values, o.primal w = .ok values → values.length = nc

/-- One iteration, seen on boxes. -/
theorem iterate_spec {W : Type} {o : Oracle W} {d : MipData} {prm : Params} {s : State W}
    {bs : List Box} (hd : DataOk d) (hp : PrimalShape o d.lower.length)
    (hs : Sim d.lower.length s.queue s.tree bs) {res : Step W}
    (h : iterate o d prm s = .ok res) : StepSpec o d prm s bs res := by
  obtain ⟨t, q, hinv, rfl⟩ := hs
  unfold iterate at h
  rw [hinv.queue] at h
  rcases pop_spec s.backjump q with ⟨h1, rfl⟩ | ⟨n, q', h1, hpop⟩
  · rw [h1] at h
    simp only [Outcome.ok.injEq] at h
    subst h
    exact .empty (by simp)
  · rw [h1] at h
    simp only at h
    obtain ⟨hlive, hleaf, hnd, hq, lb, ub, hlb, hub, hbs⟩ := pop_node hinv d hd rfl hpop
    obtain ⟨st, hex⟩ := hinv.exec
    rw [hlb, hub] at h
    simp only [Outcome.bind_ok, Outcome.bind_eq_ok] at h
    obtain ⟨w, hw, h⟩ := h
    have hpop' := hpop.map (boxOf t)
    cases hopt : o.isOptimal w with
    | false =>
      rw [hopt] at h
      simp only [Bool.false_eq_true, if_false] at h
      unfold infeasibleNode at h
      split at h
      · cases h
      · rename_i hn0
        obtain ⟨tree', t', hc1, hc2, hc3⟩ := close_step hex hlive hleaf (by omega) hinv.recs hq hnd
        rw [hc1] at h
        simp only [Outcome.bind_ok, Outcome.pure_eq] at h
        have hsim : Sim d.lower.length (q'.map (fun n => (n : Int))) tree' (q'.map (boxOf t)) :=
          ⟨t', q', hc2, hc3.symm⟩
        split at h
        · have h := Outcome.ok.inj h
          subst h
          exact .infeasible hpop' hbs hw hopt hsim rfl rfl
        · have h := Outcome.ok.inj h
          subst h
          exact .infeasible hpop' hbs hw hopt hsim rfl rfl
    | true =>
      rw [hopt] at h
      simp only [if_true] at h
      unfold optimalNode at h
      obtain ⟨tree1, t1, hl1, ⟨st1, hex1⟩, hl3, hl4, hl5, hl6⟩ :=
        setLp_step (o.objective w) hex hlive hleaf hinv.recs
      rw [hl1] at h
      simp only [Outcome.bind_ok, Outcome.bind_eq_ok, orAbort_eq_ok] at h
      obtain ⟨values, hv, integral, hi, h⟩ := h
      have hq1 : ∀ m ∈ q', m ≠ n ∧ t1.Live m ∧ t1.Children m = ∅ := by
        intro m hm
        obtain ⟨e1, e2, e3⟩ := hq m hm
        exact ⟨e1, hl4 m e2, by rw [hl5, e3]⟩
      have hbq : q'.map (boxOf t1) = q'.map (boxOf t) :=
        List.map_congr_left (fun m hm => hl6 m (hq m hm).2.1)
      cases integral with
      | true =>
        simp only [if_true] at h
        have hsim : Sim d.lower.length (q'.map (fun n => (n : Int))) tree1 (q'.map (boxOf t)) :=
          ⟨t1, q', ⟨⟨st1, hex1⟩, rfl, hnd, fun m hm => (hq1 m hm).2, hl3⟩, hbq.symm⟩
        split at h
        · rename_i hn0
          obtain rfl : n = 0 := by omega
          have h := Outcome.ok.inj h
          subst h
          exact .integral hpop' hbs hw hopt hv hi hsim rfl rfl
            (Or.inr ⟨rfl, fun j y => boxOf_root hex hinv.recs hlive j y⟩)
        · have h := Outcome.ok.inj h
          subst h
          exact .integral hpop' hbs hw hopt hv hi hsim rfl rfl (Or.inl rfl)
      | false =>
        simp only [Bool.false_eq_true, if_false] at h
        unfold branchNode at h
        simp only [Outcome.bind_eq_ok, orAbort_eq_ok] at h
        obtain ⟨⟨w', col, up⟩, hbr, v, hcv, h⟩ := h
        obtain ⟨c, rfl, hc⟩ := vecGet_eq_ok hcv
        have hclt : c < d.lower.length := by
          rw [← hp w values hv]; exact (List.getElem?_eq_some_iff.1 hc).1
        obtain ⟨tree2, tree3, dn, un, k1, k2, k3⟩ := branch_step hex1 hl3 (hl4 n hlive)
          (by rw [hl5, hleaf]) hq1 hnd c hclt v
        simp only [k1, Outcome.ok.injEq, exists_eq_left', k2, Outcome.pure_eq] at h
        subst h
        refine .branch hpop' hbs hw hopt hv hi hbr hc ?_ rfl rfl
        have := k3 up
        rwa [hl6 n hlive, hbq] at this

theorem bind_eq_error {α β : Type} {x : Outcome α} {f : α → Outcome β} {m : String} :
    (x >>= f) = .error m ↔ x = .error m ∨ ∃ a, x = .ok a ∧ f a = .error m := by
  cases x <;> simp

theorem orAbort_ne_error {α : Type} (x : Outcome α) (m : String) : x.orAbort ≠ .error m := by
  cases x <;> simp [Outcome.orAbort]

theorem vecGet_ne_error {α : Type} (l : List α) (i : Int) (m : String) : vecGet l i ≠ .error m := by
  unfold vecGet
  split
  · split <;> simp
  · simp

theorem applyBounds_ne_error {W : Type} (o : Oracle W) (lb ub : List Dbl) (l : List Int)
    (m : String) : ∀ w, applyBounds o lb ub w l ≠ .error m := by
  induction l with
  | nil => intro w; simp [applyBounds]
  | cons c r ih =>
    intro w h
    unfold applyBounds at h
    simp only [bind_eq_error, vecGet_ne_error, orAbort_ne_error, false_or] at h
    obtain ⟨_, _, _, _, w', _, h⟩ := h
    exact ih w' h

theorem solveNode_ne_error {W : Type} (o : Oracle W) (d : MipData) (lb ub : List Dbl) (w : W)
    (m : String) : solveNode o d lb ub w ≠ .error m := by
  intro h
  unfold solveNode at h
  simp only [bind_eq_error, applyBounds_ne_error, orAbort_ne_error, false_or] at h
  obtain ⟨_, _, w', _, h⟩ := h
  split at h
  · exact orAbort_ne_error _ _ h
  · cases h

theorem solutionIsIntegral_ne_error (d : MipData) (values : List ℚ) (tol : ℚ) (m : String) :
    d.solutionIsIntegral values tol ≠ .error m := by
  unfold MipData.solutionIsIntegral
  induction d.integerVariables with
  | nil => simp [MipData.allIntegral]
  | cons c r ih =>
    unfold MipData.allIntegral
    split
    · simp
    · split
      · simp
      · split
        · exact ih
        · simp

/-- An iteration reports an error only at the root, whose box is everything. -/
theorem iterate_error {W : Type} {o : Oracle W} {d : MipData} {prm : Params} {s : State W}
    {bs : List Box} (hd : DataOk d) (hp : PrimalShape o d.lower.length)
    (hs : Sim d.lower.length s.queue s.tree bs) {m : String}
    (h : iterate o d prm s = .error m) :
    ∃ b bs' lb ub w, PopSpec s.backjump bs b bs' ∧ (∀ j y, b j y) ∧ BoundsSpec d b lb ub ∧
      solveNode o d lb ub s.world = .ok w ∧ o.isOptimal w = false := by
  obtain ⟨t, q, hinv, rfl⟩ := hs
  unfold iterate at h
  rw [hinv.queue] at h
  rcases pop_spec s.backjump q with ⟨h1, rfl⟩ | ⟨n, q', h1, hpop⟩
  · rw [h1] at h; cases h
  · rw [h1] at h
    simp only at h
    obtain ⟨hlive, hleaf, hnd, hq, lb, ub, hlb, hub, hbs⟩ := pop_node hinv d hd rfl hpop
    obtain ⟨st, hex⟩ := hinv.exec
    rw [hlb, hub] at h
    simp only [Outcome.bind_ok, bind_eq_error, solveNode_ne_error, false_or] at h
    obtain ⟨w, hw, h⟩ := h
    cases hopt : o.isOptimal w with
    | false =>
      rw [hopt] at h
      simp only [Bool.false_eq_true, if_false] at h
      unfold infeasibleNode at h
      split at h
      · rename_i hn0
        obtain rfl : n = 0 := by omega
        exact ⟨_, _, lb, ub, w, hpop.map (boxOf t), fun j y => boxOf_root hex hinv.recs hlive j y,
          hbs, hw, hopt⟩
      · rename_i hn0
        obtain ⟨tree', t', hc1, -⟩ := close_step hex hlive hleaf (by omega) hinv.recs hq hnd
        rw [hc1] at h
        simp only [Outcome.bind_ok, Outcome.pure_eq] at h
        split at h <;> cases h
    | true =>
      exfalso
      rw [hopt] at h
      simp only [if_true] at h
      unfold optimalNode at h
      obtain ⟨tree1, t1, hl1, ⟨st1, hex1⟩, hl3, hl4, hl5, hl6⟩ :=
        setLp_step (o.objective w) hex hlive hleaf hinv.recs
      rw [hl1] at h
      simp only [Outcome.bind_ok, bind_eq_error, orAbort_ne_error, solutionIsIntegral_ne_error,
        false_or, orAbort_eq_ok] at h
      obtain ⟨values, hv, integral, hi, h⟩ := h
      cases integral with
      | true =>
        simp only [if_true] at h
        split at h <;> cases h
      | false =>
        simp only [Bool.false_eq_true, if_false] at h
        unfold branchNode at h
        simp only [bind_eq_error, orAbort_ne_error, vecGet_ne_error, false_or] at h
        obtain ⟨⟨w', col, up⟩, hbr, v, hcv, h⟩ := h
        obtain ⟨c, rfl, hc⟩ := vecGet_eq_ok hcv
        have hclt : c < d.lower.length := by
          rw [← hp w values hv]; exact (List.getElem?_eq_some_iff.1 hc).1
        obtain ⟨tree2, tree3, dn, un, k1, k2, k3⟩ := branch_step hex1 hl3 (hl4 n hlive)
          (by rw [hl5, hleaf]) (fun m hm => ⟨(hq m hm).1, hl4 m (hq m hm).2.1, by rw [hl5, (hq m hm).2.2]⟩)
          hnd c hclt v
        simp [k1, k2] at h

end Solver
end MiniMip
