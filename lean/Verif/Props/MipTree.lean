import Verif.Lemmas.MipTree

/-!
# C13–C18: the search tree

Executions are sequences of calls that respect the documented obligations of the caller
(`ATree.Legal`); the specification state `ATree` is a partial map from node numbers to
records, updated declaratively (`ATree.apply`).
-/

namespace MiniMip
namespace MipTree

open ATree

/-- The mutating calls. -/
inductive Op where
  | add (p : Nat) (var : Int) (down : Bool) (value : Dbl)
  | close (n : Nat)
  | setLp (n : Nat) (obj : Dbl)
  | setBounds (n : Nat) (lo up : List (Int × Dbl))

/-- One call on the model, with the returned node number (of `add`). -/
def step (s : MipTree) : Op → Outcome (MipTree × Option Int)
  | .add p var down value => do
    let (s, n) ← s.addNode p var down value
    return (s, some n)
  | .close n => do return (← s.close n, none)
  | .setLp n obj => do return (← s.setLpData n obj, none)
  | .setBounds n lo up => do return (← s.setImpliedBounds n lo up, none)

/-- The caller's obligations.  A node may be closed when it is live, is not the root and
has no child or two children; children are added to live nodes with at most one child;
the other data of a node are set while it is a live leaf. -/
def ATree.Legal (t : ATree) : Op → Prop
  | .add p _ _ _ => t.Live p ∧ (t.Children p).ncard ≤ 1
  | .close n => t.Live n ∧ n ≠ 0 ∧ ((t.Children n).ncard = 0 ∨ (t.Children n).ncard = 2)
  | .setLp n _ => t.Live n ∧ (t.Children n).ncard = 0
  | .setBounds n _ _ => t.Live n ∧ (t.Children n).ncard = 0

open Classical in
/-- The effect of a call on the specification state; `out` is the number returned. -/
noncomputable def ATree.apply (t : ATree) (o : Op) (out : Option Int) : ATree := fun m =>
  match o, out with
  | .add p var down value, some n =>
    if (m : Int) = n then
      some ⟨some p, ((t p).elim 0 Rec.depth) + 1, var, down, value, .ninf, [], []⟩
    else t m
  | .close n, _ => if t.Removed n m then none else t m
  | .setLp n obj, _ => if m = n then (t m).map (fun r => { r with obj := obj }) else t m
  | .setBounds n lo up, _ =>
    if m = n then (t m).map (fun r => { r with lower := lo, upper := up }) else t m
  | _, _ => t m

/-- Statistics of an execution: number of nodes added and closed by calls, and the largest
number of nodes that were live at the same time. -/
structure Stats where
  adds : Nat
  closes : Nat
  peak : Nat

def Stats.next (st : Stats) (o : Op) (count : Nat) : Stats :=
  ⟨st.adds + (match o with | .add .. => 1 | _ => 0),
   st.closes + (match o with | .close _ => 1 | _ => 0), max st.peak count⟩

/-- Executions of legal calls, from the constructor on. -/
inductive Exec : Stats → MipTree → ATree → Prop
  | init : Exec ⟨0, 0, 1⟩ MipTree.init ATree.init
  | step {st s t o s' out} : Exec st s t → t.Legal o → s.step o = .ok (s', out) →
      Exec (st.next o (t.apply o out).count) s' (t.apply o out)

/-! ## Refinement -/

theorem Rel.close {s t} (h : Rel s t) {n : Nat} (hl : t.Legal (.close n)) :
    ∃ s', s.close n = .ok s' ∧ Rel s' (t.apply (.close n) none) ∧
      s'.nodes.length = s.nodes.length ∧
      s'.numClosed + ((t.apply (.close n) none).count : Int) = s.numClosed + (t.count : Int) := by
  obtain ⟨⟨r, hr⟩, hn0, hc⟩ := hl
  unfold MipTree.close
  rw [h.checkedNode hr]
  simp only [Outcome.bind_ok]
  rw [vecGet_some (h.cnt n ⟨r, hr⟩)]
  simp only [Outcome.bind_ok]
  have hw := h.wf n r hr
  cases hp : r.parent with
  | none => rw [hp] at hw; exact absurd hw.1 hn0
  | some p =>
    rw [hp] at hw; simp only at hw
    obtain ⟨-, rp, hrp, -⟩ := hw
    have hpar : r.toNode.parent = (p : Int) := by simp [Rec.toNode, hp]
    rw [hpar, vecGet_some (h.cnt p ⟨rp, hrp⟩)]
    have h2 := h.two p
    have hchk : (decide (((t.Children n).ncard : Int) = 0) || decide (((t.Children n).ncard : Int) = 2))
        = true := by
      rcases hc with hc | hc <;> simp [hc]
    simp only [Outcome.bind_ok, Outcome.check, hchk, if_true]
    rw [show decide ((0 : Int) ≤ ((t.Children p).ncard : Int)) = true by simp,
      show decide (((t.Children p).ncard : Int) ≤ 2) = true by
        rw [decide_eq_true_eq]; exact_mod_cast h2]
    simp only [if_true, Outcome.bind_ok]
    have hd := h.depth_lt hr
    obtain ⟨s', h3, h4, h5, h6⟩ := h.reclaim (fuel := s.nodes.length + 1) hr (by omega)
    exact ⟨s', h3, h4, h5, h6⟩

theorem Rel.setLp {s t} (h : Rel s t) {n : Nat} (obj : Dbl) (hl : t.Legal (.setLp n obj)) :
    ∃ s', s.setLpData n obj = .ok s' ∧ Rel s' (t.apply (.setLp n obj) none) ∧
      s'.nodes.length = s.nodes.length ∧ s'.numClosed = s.numClosed ∧
      (t.apply (.setLp n obj) none).count = t.count := by
  obtain ⟨⟨r, hr⟩, hc⟩ := hl
  have hn := h.dom n ⟨r, hr⟩
  have hR := h.update_live (r' := { r with obj := obj }) hr rfl rfl
  have heq : t.apply (.setLp n obj) none = Function.update t n (some { r with obj := obj }) := by
    funext m
    by_cases hm : m = n
    · subst hm; simp [ATree.apply, hr]
    · simp [ATree.apply, hm]
  refine ⟨{ s with nodes := s.nodes.set n ({ r with obj := obj } : Rec).toNode }, ?_, ?_, ?_, rfl, ?_⟩
  · unfold MipTree.setLpData
    rw [h.checkedNode hr]
    simp only [Outcome.bind_ok]
    rw [vecGet_some (h.cnt n ⟨r, hr⟩)]
    simp only [Outcome.bind_ok, Outcome.check, hc]
    rw [vecSet_lt hn]
    simp [Rec.toNode]
  · rw [heq]; exact hR
  · simp
  · rw [heq]; exact h.count_update hr _

theorem Rel.setBounds {s t} (h : Rel s t) {n : Nat} (lo up : List (Int × Dbl))
    (hl : t.Legal (.setBounds n lo up)) :
    ∃ s', s.setImpliedBounds n lo up = .ok s' ∧ Rel s' (t.apply (.setBounds n lo up) none) ∧
      s'.nodes.length = s.nodes.length ∧ s'.numClosed = s.numClosed ∧
      (t.apply (.setBounds n lo up) none).count = t.count := by
  obtain ⟨⟨r, hr⟩, hc⟩ := hl
  have hn := h.dom n ⟨r, hr⟩
  have hR := h.update_live (r' := { r with lower := lo, upper := up }) hr rfl rfl
  have heq : t.apply (.setBounds n lo up) none =
      Function.update t n (some { r with lower := lo, upper := up }) := by
    funext m
    by_cases hm : m = n
    · subst hm; simp [ATree.apply, hr]
    · simp [ATree.apply, hm]
  refine ⟨{ s with nodes := s.nodes.set n ({ r with lower := lo, upper := up } : Rec).toNode },
    ?_, ?_, ?_, rfl, ?_⟩
  · unfold MipTree.setImpliedBounds
    rw [h.checkedNode hr]
    simp only [Outcome.bind_ok]
    rw [vecGet_some (h.cnt n ⟨r, hr⟩)]
    simp only [Outcome.bind_ok, Outcome.check, hc]
    rw [vecSet_lt hn]
    simp [Rec.toNode]
  · rw [heq]; exact hR
  · simp
  · rw [heq]; exact h.count_update hr _

theorem Rel.add {s t} (h : Rel s t) {p : Nat} {var down value}
    (hl : t.Legal (.add p var down value)) :
    ∃ s' n, s.addNode p var down value = .ok (s', ((n : Nat) : Int)) ∧ t n = none ∧
      Rel s' (t.apply (.add p var down value) (some n)) ∧
      s'.numClosed = s.numClosed ∧ s'.nodes.length = s.grow.nodes.length ∧
      (t.apply (.add p var down value) (some n)).count = t.count + 1 := by
  obtain ⟨⟨rp, hrp⟩, hc⟩ := hl
  obtain ⟨s', n, h1, h2, h3, h4, h5⟩ := h.addNode hrp hc var down value
  have heq : t.apply (.add p var down value) (some (n : Int)) =
      Function.update t n (some (freshRec p (rp.depth + 1) var down value)) := by
    funext m
    by_cases hm : m = n
    · subst hm; simp [ATree.apply, hrp, freshRec]
    · simp [ATree.apply, hm]
  exact ⟨s', n, h1, h2, by rw [heq]; exact h3, h4, h5, by rw [heq]; exact h.count_add h2 _⟩

theorem Rel.step {s t} (h : Rel s t) {o : Op} (hl : t.Legal o) :
    ∃ s' out, s.step o = .ok (s', out) ∧ Rel s' (t.apply o out) := by
  cases o with
  | add p var down value =>
    obtain ⟨s', n, h1, -, h3, -⟩ := h.add hl
    exact ⟨s', some n, by simp [MipTree.step, h1], h3⟩
  | close n =>
    obtain ⟨s', h1, h2, -⟩ := h.close hl
    exact ⟨s', none, by simp [MipTree.step, h1], h2⟩
  | setLp n obj =>
    obtain ⟨s', h1, h2, -⟩ := h.setLp obj hl
    exact ⟨s', none, by simp [MipTree.step, h1], h2⟩
  | setBounds n lo up =>
    obtain ⟨s', h1, h2, -⟩ := h.setBounds lo up hl
    exact ⟨s', none, by simp [MipTree.step, h1], h2⟩

theorem Exec.rel {st s t} (h : Exec st s t) : Rel s t := by
  induction h with
  | init => exact Rel.init
  | step _ hl hs ih =>
    obtain ⟨s1, out1, h1, h2⟩ := ih.step hl
    rw [h1] at hs
    simp only [Outcome.ok.injEq, Prod.mk.injEq] at hs
    rw [← hs.1, ← hs.2]; exact h2

/-! ## C13 -/

/-- **C13 (never fails).**  In every execution, every legal call returns normally; `add`
returns a node number that no live node has. -/
theorem C13_calls_succeed {st s t} (h : Exec st s t) {o : Op} (hl : t.Legal o) :
    ∃ s' out, s.step o = .ok (s', out) ∧
      ∀ p var down value, o = .add p var down value →
        ∃ n : Nat, out = some (n : Int) ∧ ¬ t.Live n ∧ s.node n = .abort := by
  cases o with
  | add p var down value =>
    obtain ⟨s', n, h1, h2, -⟩ := h.rel.add hl
    refine ⟨s', some n, by simp [MipTree.step, h1], ?_⟩
    intro _ _ _ _ _
    refine ⟨n, rfl, ?_, h.rel.checkedNode_dead h2⟩
    rintro ⟨r, hr⟩; rw [h2] at hr; cases hr
  | _ =>
    obtain ⟨s', out, h1, -⟩ := h.rel.step hl
    exact ⟨s', out, h1, by intro _ _ _ _ h; cases h⟩

/-- **C13 (node contents).**  In every execution `node(n)` returns exactly the recorded
parent, depth, branching data, objective and implied bounds of a live node, and aborts for
any other number. -/
theorem C13_node_reads_record {st s t} (h : Exec st s t) :
    (∀ n r, t n = some r → ∃ d, s.node n = .ok d ∧
      d.parent = (match r.parent with | none => -1 | some p => (p : Int)) ∧
      d.depth = r.depth ∧ d.branchVariable = r.var ∧ d.branchDown = r.down ∧
      d.branchValue = r.value ∧ d.lpObjective = r.obj ∧ d.impliedLower = r.lower ∧
      d.impliedUpper = r.upper) ∧
    (∀ n : Int, (∀ m : Nat, n = m → t m = none) → s.node n = .abort) := by
  constructor
  · intro n r hr
    exact ⟨_, h.rel.checkedNode hr, rfl, rfl, rfl, rfl, rfl, rfl, rfl, rfl⟩
  · intro n hn
    by_cases h0 : 0 ≤ n
    · obtain ⟨m, rfl⟩ := Int.eq_ofNat_of_zero_le h0
      exact h.rel.checkedNode_dead (hn m rfl)
    · unfold MipTree.node MipTree.checkedNode
      simp [Outcome.check, h0]

/-- **C13 (stability), on the code's own data.**  If a node is live before and after a
legal call, its parent, depth and branching data are the same. -/
theorem C13_identity_stable {st s t} (h : Exec st s t) {o : Op} (hl : t.Legal o) {s' out}
    (hs : s.step o = .ok (s', out)) {n : Nat} {d d' : NodeData}
    (hd : s.node n = .ok d) (hd' : s'.node n = .ok d') :
    d'.parent = d.parent ∧ d'.depth = d.depth ∧ d'.branchVariable = d.branchVariable ∧
      d'.branchDown = d.branchDown ∧ d'.branchValue = d.branchValue := by
  have hR := h.rel
  have hR' := (Exec.step h hl hs).rel
  have hlive : ∃ r, t n = some r := by
    by_contra hcon
    have hno : t n = none := by
      cases hh : t n with
      | none => rfl
      | some r => exact absurd ⟨r, hh⟩ hcon
    have := hR.checkedNode_dead hno
    unfold MipTree.node at hd; rw [this] at hd; cases hd
  obtain ⟨r, hr⟩ := hlive
  have hd1 := hR.checkedNode hr
  unfold MipTree.node at hd hd'
  rw [hd1] at hd; simp only [Outcome.ok.injEq] at hd; subst hd
  have hlive' : ∃ r', (t.apply o out) n = some r' := by
    by_contra hcon
    have hno : (t.apply o out) n = none := by
      cases hh : (t.apply o out) n with
      | none => rfl
      | some r => exact absurd ⟨r, hh⟩ hcon
    have := hR'.checkedNode_dead hno
    rw [this] at hd'; cases hd'
  obtain ⟨r', hr'⟩ := hlive'
  have hd2 := hR'.checkedNode hr'
  rw [hd2] at hd'; simp only [Outcome.ok.injEq] at hd'; subst hd'
  have key : r'.parent = r.parent ∧ r'.depth = r.depth ∧ r'.var = r.var ∧ r'.down = r.down ∧
      r'.value = r.value := by
    cases o with
    | add p var down value =>
      obtain ⟨s1, k, h1, h2, -⟩ := hR.add hl
      simp only [MipTree.step, h1, Outcome.bind_ok, Outcome.pure_eq, Outcome.ok.injEq,
        Prod.mk.injEq] at hs
      obtain ⟨-, rfl⟩ := hs
      have hnk : n ≠ k := by rintro rfl; rw [h2] at hr; cases hr
      simp [ATree.apply, hnk, hr] at hr'
      subst hr'; simp
    | close k =>
      simp only [ATree.apply] at hr'
      split at hr'
      · cases hr'
      · rw [hr] at hr'; simp only [Option.some.injEq] at hr'; subst hr'; simp
    | setLp k obj =>
      simp only [ATree.apply, hr] at hr'
      split at hr' <;> (simp at hr'; subst hr'; simp)
    | setBounds k lo up =>
      simp only [ATree.apply, hr] at hr'
      split at hr' <;> (simp at hr'; subst hr'; simp)
  obtain ⟨h1, h2, h3, h4, h5⟩ := key
  simp [Rec.toNode, h1, h2, h3, h4, h5]

/-- **C13 (added node).**  What `add` returns is live afterwards, with the arguments given,
one level below its parent, without implied bounds and with LP value −∞; every other node
reads as before. -/
theorem C13_added_node {st s t} (h : Exec st s t) {p : Nat} {var down value}
    (hl : t.Legal (.add p var down value)) :
    ∃ s' n, s.addNode p var down value = .ok (s', ((n : Nat) : Int)) ∧
      (∃ dp, s.node p = .ok dp ∧
        s'.node n = .ok
          { parent := p
            depth := dp.depth + 1
            branchVariable := var
            branchDown := down
            branchValue := value }) ∧
      ∀ m : Nat, m ≠ n → s'.node m = s.node m := by
  have hR := h.rel
  obtain ⟨s', n, h1, h2, h3, -⟩ := hR.add hl
  obtain ⟨⟨rp, hrp⟩, -⟩ := hl
  refine ⟨s', n, h1, ⟨_, hR.checkedNode hrp, ?_⟩, ?_⟩
  · have : (t.apply (.add p var down value) (some (n : Int))) n =
        some ⟨some p, rp.depth + 1, var, down, value, .ninf, [], []⟩ := by
      simp [ATree.apply, hrp]
    have := h3.checkedNode this
    unfold MipTree.node; rw [this]
    simp [Rec.toNode]
  · intro m hm
    have hap : (t.apply (.add p var down value) (some (n : Int))) m = t m := by
      simp [ATree.apply, hm]
    unfold MipTree.node
    cases ht : t m with
    | none => rw [hR.checkedNode_dead ht, h3.checkedNode_dead (by rw [hap, ht])]
    | some r => rw [hR.checkedNode ht, h3.checkedNode (by rw [hap, ht])]

/-! ## C14, C15 -/

/-- **C14 (exact reclamation).**  Closing a non-root node reclaims exactly the nodes of
`Removed`: the node itself and the ancestors without live descendants off the path, or
nobody if the node has children.  All other nodes read as before. -/
theorem C14_close_exact {st s t} (h : Exec st s t) {n : Nat} (hl : t.Legal (.close n)) :
    ∃ s', s.close n = .ok s' ∧
      (∀ m, t.Removed n m → s'.node m = .abort) ∧
      (∀ m, ¬ t.Removed n m → s'.node m = s.node m) := by
  have hR := h.rel
  obtain ⟨s', h1, h2, -⟩ := hR.close hl
  refine ⟨s', h1, ?_, ?_⟩
  · intro m hm
    exact h2.checkedNode_dead (by simp [ATree.apply, hm])
  · intro m hm
    have hap : (t.apply (.close n) none) m = t m := by simp [ATree.apply, hm]
    unfold MipTree.node
    cases ht : t m with
    | none => rw [hR.checkedNode_dead ht, h2.checkedNode_dead (by rw [hap, ht])]
    | some r => rw [hR.checkedNode ht, h2.checkedNode (by rw [hap, ht])]

/-- **C14 (leaf).**  Closing a leaf reclaims at least that leaf; closing a node with two
children reclaims nothing. -/
theorem C14_close_leaf_inner {st s t} (h : Exec st s t) (n : Nat) :
    ((t.Children n).ncard = 0 → t.Removed n n) ∧
    ((t.Children n).ncard = 2 → ∀ m, ¬ t.Removed n m) := by
  have hR := h.rel
  constructor
  · intro hc
    have hempty : t.Children n = ∅ := (Set.ncard_eq_zero (hR.children_finite n)).1 hc
    have hleaf : ∀ d, ¬ t.ParentOf n d := by
      intro d hd
      have : d ∈ t.Children n := hd
      rw [hempty] at this; exact this
    exact ⟨.refl, fun d _ hd => by rw [anc_leaf hleaf hd]; exact .refl⟩
  · intro hc m
    have hne : (t.Children n).Nonempty := by
      rw [← Set.ncard_pos (hR.children_finite n)]; omega
    obtain ⟨d, hd⟩ := hne
    exact removed_inner hR.wf hd m

/-- **C14 (counters of children and emptiness).**  The recorded number of open children is
the number of live children, and `TreeIsEmpty()` holds iff no node is live. -/
theorem C14_open_children_and_empty {st s t} (h : Exec st s t) :
    (∀ n, t.Live n → s.numOpenChildren n = .ok ((t.Children n).ncard : Int)) ∧
    (s.isEmpty = true ↔ ∀ n, ¬ t.Live n) := by
  have hR := h.rel
  refine ⟨fun n hn => vecGet_some (hR.cnt n hn), ?_⟩
  unfold MipTree.isEmpty
  rw [decide_eq_true_eq]
  constructor
  · intro h0 n hn
    obtain ⟨fl, -, h2, h3⟩ := hR.free
    cases fl with
    | nil => have h3' : s.nextFree = -1 := h3; omega
    | cons a fl =>
      obtain ⟨h4, -⟩ := h3
      have ha : a = 0 := by omega
      subst ha
      obtain ⟨-, h5⟩ := (h2 0).1 (by simp)
      obtain ⟨r, hr⟩ := hn
      rw [hR.empty h5 n] at hr; cases hr
  · intro hno
    apply hR.head
    by_contra hne
    exact hno 0 (Option.ne_none_iff_exists'.1 hne)

/-- The root of a fresh tree has no children, but closing it reads the children counter of
node −1: **C15 does not hold**. -/
theorem C15_close_root_violated :
    MipTree.init.node 0 = .ok { ({} : NodeData) with depth := 0 } ∧
    MipTree.init.numOpenChildren 0 = .ok 0 ∧ MipTree.init.close 0 = .ub := by
  refine ⟨by decide +kernel, by decide +kernel, by decide +kernel⟩

/-- **C15, in general:** in every execution, closing the live root never returns: it is
undefined behaviour (or an abort, if the root has exactly one child). -/
theorem C15_close_root_never_returns {st s t} (h : Exec st s t) (h0 : t.Live 0) :
    s.close 0 = .ub ∨ s.close 0 = .abort := by
  have hR := h.rel
  obtain ⟨r, hr⟩ := h0
  have hpar : r.toNode.parent = -1 := by
    have := hR.wf 0 r hr
    cases hp : r.parent with
    | none => simp [Rec.toNode, hp]
    | some p => rw [hp] at this; exact absurd rfl this.1
  unfold MipTree.close
  have h1 := hR.checkedNode hr
  have h2 := vecGet_some (hR.cnt 0 ⟨r, hr⟩)
  simp only [Int.natCast_zero] at h1 h2
  simp only [h1, h2, Outcome.bind_ok, hpar]
  have hub : vecGet s.openChildren (-1) = .ub := by simp [vecGet]
  rw [hub]
  unfold Outcome.check
  split <;> simp

/-- **C15_partial.**  The tree does become empty when the last leaf below the root is
closed: closing a leaf all of whose ancestors have no other live descendant leaves
`TreeIsEmpty()` true, and every node is reclaimed.  Missing: the root itself may not be
closed while it is the only node (see `C15_close_root_violated`). -/
theorem C15_close_last_leaf_partial {st s t} (h : Exec st s t) {n : Nat} (hl : t.Legal (.close n))
    (hlast : ∀ d, t.Live d → t.Anc d n) :
    ∃ s', s.close n = .ok s' ∧ s'.isEmpty = true ∧ ∀ m : Nat, s'.node m = .abort := by
  have hR := h.rel
  obtain ⟨s', h1, h2, -⟩ := hR.close hl
  have hE : Exec _ s' (t.apply (.close n) none) :=
    Exec.step h hl (by simp [MipTree.step, h1])
  have hall : ∀ m, (t.apply (.close n) none) m = none := by
    intro m
    simp only [ATree.apply]
    split
    · rfl
    · rename_i hnr
      by_contra hne
      exact hnr ⟨hlast m (Option.ne_none_iff_exists'.1 hne), fun d hd _ => hlast d hd⟩
  refine ⟨s', h1, ?_, fun m => h2.checkedNode_dead (hall m)⟩
  rw [(C14_open_children_and_empty hE).2]
  rintro m ⟨r, hr⟩
  rw [hall m] at hr; cases hr

/-! ## C16 -/

theorem Exec.counters {st s t} (h : Exec st s t) :
    s.numClosed + (t.count : Int) = st.adds + 1 ∧ s.nodes.length = max 2 st.peak ∧
      t.count ≤ st.peak := by
  induction h with
  | init =>
    have hc : ATree.init.count = 1 := by
      unfold ATree.count
      have : {m | ATree.init.Live m} = {0} := by
        ext m; simp only [Set.mem_ofPred_eq, Set.mem_singleton_iff]
        unfold ATree.Live ATree.init; by_cases h : m = 0 <;> simp [h]
      rw [this]; simp
    simp [hc, MipTree.init]
  | @step st s t o s' out he hl hs ih =>
    have hR := he.rel
    have hle := hR.count_le
    cases o with
    | add p var down value =>
      obtain ⟨s1, n, h1, h2, h3, h4, h5, h6⟩ := hR.add hl
      simp only [MipTree.step, h1, Outcome.bind_ok, Outcome.pure_eq, Outcome.ok.injEq,
        Prod.mk.injEq] at hs
      obtain ⟨rfl, rfl⟩ := hs
      have hg := hR.grow_length
      simp only [Stats.next, h6, h4, h5, hg]
      refine ⟨by push_cast; omega, ?_, by omega⟩
      split <;> omega
    | close n =>
      obtain ⟨s1, h1, h2, h3, h4⟩ := hR.close hl
      simp only [MipTree.step, h1, Outcome.bind_ok, Outcome.pure_eq, Outcome.ok.injEq,
        Prod.mk.injEq] at hs
      obtain ⟨rfl, rfl⟩ := hs
      have hle' := h2.count_le
      simp only [Stats.next]
      refine ⟨by omega, by omega, by omega⟩
    | setLp n obj =>
      obtain ⟨s1, h1, h2, h3, h4, h5⟩ := hR.setLp obj hl
      simp only [MipTree.step, h1, Outcome.bind_ok, Outcome.pure_eq, Outcome.ok.injEq,
        Prod.mk.injEq] at hs
      obtain ⟨rfl, rfl⟩ := hs
      simp only [Stats.next]
      rw [h4, h5]
      refine ⟨by omega, by omega, by omega⟩
    | setBounds n lo up =>
      obtain ⟨s1, h1, h2, h3, h4, h5⟩ := hR.setBounds lo up hl
      simp only [MipTree.step, h1, Outcome.bind_ok, Outcome.pure_eq, Outcome.ok.injEq,
        Prod.mk.injEq] at hs
      obtain ⟨rfl, rfl⟩ := hs
      simp only [Stats.next]
      rw [h4, h5]
      refine ⟨by omega, by omega, by omega⟩

/-- **C16_partial.**  What the counters do count, in every execution: `num_closed_nodes` is
the number of *reclaimed* nodes (nodes added, plus the root, minus the live ones), and
`num_added_nodes` is one less than the number of *slots*: the peak number of
simultaneously live nodes, at least 2.  Missing: the documented meaning, which is false,
see `C16_counters_violated`. -/
theorem C16_counters_partial {st s t} (h : Exec st s t) :
    s.numClosedNodes = st.adds + 1 - (t.count : Int) ∧
    s.numAddedNodes = (max 2 st.peak : Nat) - 1 := by
  obtain ⟨h1, h2, -⟩ := h.counters
  unfold numClosedNodes numAddedNodes
  constructor
  · omega
  · rw [h2]

theorem children_empty_of_init (n : Nat) : ATree.init.Children n = ∅ := by
  ext d
  simp only [ATree.Children, ATree.ParentOf, Set.mem_ofPred_eq, Set.mem_empty_iff_false, iff_false]
  rintro ⟨r, hr, hp⟩
  unfold ATree.init at hr
  split at hr
  · simp only [Option.some.injEq] at hr; subst hr; simp at hp
  · cases hr

/-- The tree after adding the two children of the root, with its specification state. -/
theorem exec_two_children : ∃ s t, Exec ⟨2, 0, 3⟩ s t ∧ s.numClosed = 0 ∧ s.nodes.length = 3 ∧
    t.Live 1 ∧ t.Live 2 ∧ t.ParentOf 0 1 ∧ t.ParentOf 0 2 ∧ t.Children 1 = ∅ ∧ t.Children 2 = ∅ ∧
    t 0 = some ⟨none, 0, -1, false, .fin 0, .ninf, [], []⟩ ∧
    t 1 = some ⟨some 0, 1, 0, true, .fin (1 / 2), .ninf, [], []⟩ := by
  have h0 : ATree.init.Legal (.add 0 0 true (.fin (1 / 2))) := by
    refine ⟨⟨_, rfl⟩, ?_⟩
    rw [children_empty_of_init]; simp
  have e1 := Exec.step Exec.init h0 (s' := ⟨[{ ({} : NodeData) with depth := 0 },
    { parent := 0, depth := 1, branchVariable := 0, branchDown := true, branchValue := .fin (1/2) }],
    [1, 0], -1, 0⟩) (out := some 1) (by decide +kernel)
  set t1 := ATree.init.apply (.add 0 0 true (.fin (1 / 2))) (some 1) with ht1
  have ht1' : t1 = Function.update ATree.init 1
      (some ⟨some 0, 1, 0, true, .fin (1 / 2), .ninf, [], []⟩) := by
    funext m
    by_cases hm : m = 1
    · subst hm; simp [ht1, ATree.apply, ATree.init]
    · have hm' : ¬ ((m : Int) = 1) := by omega
      simp [ht1, ATree.apply, hm, hm']
  have hp1 : ∀ a m, t1.ParentOf a m ↔ a = 0 ∧ m = 1 := by
    intro a m
    unfold ATree.ParentOf
    rw [ht1']
    by_cases hm : m = 1
    · subst hm; simp [eq_comm]
    · simp only [Function.update_of_ne hm, hm, and_false, iff_false]
      rintro ⟨r, hr, hp⟩
      unfold ATree.init at hr
      split at hr
      · simp only [Option.some.injEq] at hr; subst hr; simp at hp
      · cases hr
  have hc1 : t1.Children 0 = {1} := by
    ext m; simp only [ATree.Children, Set.mem_ofPred_eq, hp1]; simp
  have h1 : t1.Legal (.add 0 0 false (.fin (1 / 2))) := by
    refine ⟨⟨⟨none, 0, -1, false, .fin 0, .ninf, [], []⟩, ?_⟩, ?_⟩
    · rw [ht1']; simp [ATree.init]
    · rw [hc1]; simp
  have e2 := Exec.step e1 h1 (s' := ⟨[{ ({} : NodeData) with depth := 0 },
    { parent := 0, depth := 1, branchVariable := 0, branchDown := true, branchValue := .fin (1/2) },
    { parent := 0, depth := 1, branchVariable := 0, branchDown := false, branchValue := .fin (1/2) }],
    [2, 0, 0], -1, 0⟩) (out := some 2) (by decide +kernel)
  set t2 := t1.apply (.add 0 0 false (.fin (1 / 2))) (some 2) with ht2
  have ht2' : t2 = Function.update t1 2
      (some ⟨some 0, 1, 0, false, .fin (1 / 2), .ninf, [], []⟩) := by
    funext m
    by_cases hm : m = 2
    · subst hm; simp [ht2, ATree.apply, ht1', ATree.init]
    · have hm' : ¬ ((m : Int) = 2) := by omega
      simp [ht2, ATree.apply, hm, hm']
  have hp2 : ∀ a m, t2.ParentOf a m ↔ a = 0 ∧ (m = 1 ∨ m = 2) := by
    intro a m
    by_cases hm : m = 2
    · subst hm; unfold ATree.ParentOf; rw [ht2']; simp [eq_comm]
    · have : t2.ParentOf a m ↔ t1.ParentOf a m := by
        unfold ATree.ParentOf; rw [ht2']; simp [hm]
      rw [this, hp1]; simp [hm]
  have hcnt := e2.counters
  have hc0 : t1.count = 2 := by
    have := e1.counters.1; simp [Stats.next] at this; omega
  have hc2 : t2.count = 3 := by
    have := e2.counters.1; simp [Stats.next] at this; omega
  simp only [Stats.next, ← ht1, ← ht2, hc0, hc2] at e2
  refine ⟨_, t2, e2, rfl, rfl, ?_, ?_, (hp2 0 1).2 (by simp), (hp2 0 2).2 (by simp), ?_, ?_,
    by rw [ht2', ht1']; simp [ATree.init], by rw [ht2', ht1']; simp [Function.update]⟩
  · exact ⟨_, ((hp2 0 1).2 (by simp)).choose_spec.1⟩
  · exact ⟨_, ((hp2 0 2).2 (by simp)).choose_spec.1⟩
  · ext m; simp only [ATree.Children, Set.mem_ofPred_eq, hp2]; simp
  · ext m; simp only [ATree.Children, Set.mem_ofPred_eq, hp2]; simp

/-- **C16 is false.**  (a) Right after construction no node has been added, yet
`num_added_nodes()` is 1.  (b) In an execution where both children of the root were added
and one was closed, then its slot reused, three nodes have been added but
`num_added_nodes()` is 2.  (c) Closing an inner node does not count: see the third part,
stated for every execution. -/
theorem C16_counters_violated :
    (∃ s t, Exec ⟨0, 0, 1⟩ s t ∧ s.numAddedNodes ≠ 0) ∧
    (∃ st s t, Exec st s t ∧ st.adds = 3 ∧ s.numAddedNodes = 2) ∧
    (∀ st s t n, Exec st s t → t.Legal (.close n) → (t.Children n).ncard = 2 →
      ∀ s', s.close n = .ok s' → s'.numClosedNodes = s.numClosedNodes) := by
  refine ⟨⟨_, _, Exec.init, by decide⟩, ?_, ?_⟩
  · obtain ⟨s, t, he, h1, h2, h3, h4, h5, h6, h7, h8, h9, h10⟩ := exec_two_children
    have hl : t.Legal (.close 1) := ⟨h3, by simp, Or.inl (by rw [h7]; simp)⟩
    obtain ⟨s', out, hs, hR'⟩ := he.rel.step hl
    have e3 := Exec.step he hl hs
    -- node 2 is still live and a leaf
    have hn2 : ¬ t.Removed 1 2 := by
      rintro ⟨ha, -⟩
      rcases Relation.ReflTransGen.cases_head ha with h | ⟨c, hc, -⟩
      · omega
      · have : c ∈ t.Children 2 := hc
        rw [h8] at this; exact this
    have hlive2 : (t.apply (.close 1) out).Live 2 := by
      obtain ⟨r, hr⟩ := h4
      exact ⟨r, by simp [ATree.apply, hn2, hr]⟩
    have hch : (t.apply (.close 1) out).Children 2 = ∅ := by
      ext m
      simp only [ATree.Children, Set.mem_ofPred_eq, Set.mem_empty_iff_false, iff_false]
      rintro ⟨r, hr, hp⟩
      simp only [ATree.apply] at hr
      split at hr
      · cases hr
      · have : m ∈ t.Children 2 := ⟨r, hr, hp⟩
        rw [h8] at this; exact this
    have hl2 : (t.apply (.close 1) out).Legal (.add 2 0 true (.fin 0)) :=
      ⟨hlive2, by rw [hch]; simp⟩
    obtain ⟨s'', out2, hs2, hR2⟩ := hR'.step hl2
    have e4 := Exec.step e3 hl2 hs2
    refine ⟨_, s'', _, e4, rfl, ?_⟩
    have hlen := e4.counters.2.1
    have hle := e4.counters.2.2
    have h31 := e3.counters
    -- at most three nodes were live at any time
    have hc3 : (t.apply (.close 1) out).count ≤ 2 := by
      have hrem := hR'.count_le
      obtain ⟨s1, ha, hb, hc, hd⟩ := he.rel.close hl
      have hlr : t.Removed 1 1 := (C14_close_leaf_inner he _).1 (by rw [h7]; simp)
      have hsub : {m | (t.apply (.close 1) out).Live m} ⊆ {m | t.Live m} \ {1} := by
        rintro m ⟨r, hr⟩
        simp only [ATree.apply] at hr
        split at hr
        · cases hr
        · rename_i hm
          exact ⟨⟨r, hr⟩, by rintro rfl; exact hm hlr⟩
      have h9 := Set.ncard_le_ncard hsub (he.rel.live_finite.subset Set.sdiff_subset)
      have h10 := Set.ncard_sdiff_singleton_add_one (show 1 ∈ {m | t.Live m} from h3) he.rel.live_finite
      have h11 := he.counters.2.2
      unfold ATree.count at h11 ⊢
      simp only at h11
      omega
    have hc4 : ((t.apply (.close 1) out).apply (.add 2 0 true (.fin 0)) out2).count ≤ 3 := by
      obtain ⟨s1, n, ha, hb, hc, hd, he', hf⟩ := hR'.add hl2
      simp only [MipTree.step, ha, Outcome.bind_ok, Outcome.pure_eq, Outcome.ok.injEq,
        Prod.mk.injEq] at hs2
      obtain ⟨-, rfl⟩ := hs2
      rw [hf]; omega
    simp only [Stats.next] at hlen
    unfold numAddedNodes
    omega
  · intro st s t n he hl hc s' hs
    obtain ⟨s1, h1, h2, -, h4⟩ := he.rel.close hl
    rw [h1] at hs; simp only [Outcome.ok.injEq] at hs; subst hs
    have : t.apply (.close n) none = t := by
      funext m
      simp [ATree.apply, (C14_close_leaf_inner he _).2 hc m]
    rw [this] at h4
    unfold numClosedNodes
    omega

/-- The hypotheses of C13–C16 are met by a tree whose root has two children, one of which
may be closed. -/
example : ∃ st s t, Exec st s t ∧ t.Legal (.close 1) ∧ (t.Children 1).ncard = 0 := by
  obtain ⟨s, t, he, h1, h2, h3, h4, h5, h6, h7, h8, h9, h10⟩ := exec_two_children
  exact ⟨_, s, t, he, ⟨h3, by simp, Or.inl (by rw [h7]; simp)⟩, by rw [h7]; simp⟩

/-! ## Misuse aborts -/

/-- Calls outside the caller's obligations (other than closing the root) abort instead of
corrupting the tree. -/
theorem C13_misuse_aborts {st s t} (h : Exec st s t) (n : Nat) :
    (t n = none → (∀ v d x, s.addNode n v d x = .abort) ∧ s.close n = .abort ∧
      (∀ x, s.setLpData n x = .abort) ∧ ∀ lo up, s.setImpliedBounds n lo up = .abort) ∧
    (t.Live n → (t.Children n).ncard = 2 → ∀ v d x, s.addNode n v d x = .abort) ∧
    (t.Live n → (t.Children n).ncard = 1 → s.close n = .abort) ∧
    (t.Live n → (t.Children n).ncard ≠ 0 →
      (∀ x, s.setLpData n x = .abort) ∧ ∀ lo up, s.setImpliedBounds n lo up = .abort) := by
  have hR := h.rel
  refine ⟨?_, ?_, ?_, ?_⟩
  · intro hn
    have := hR.checkedNode_dead hn
    refine ⟨fun v d x => ?_, ?_, fun x => ?_, fun lo up => ?_⟩
    · unfold MipTree.addNode; rw [this]; rfl
    · unfold MipTree.close; rw [this]; rfl
    · unfold MipTree.setLpData; rw [this]; rfl
    · unfold MipTree.setImpliedBounds; rw [this]; rfl
  · rintro ⟨r, hr⟩ hc v d x
    obtain ⟨hg, hne⟩ := hR.grow ⟨r, hr⟩
    unfold MipTree.addNode
    rw [hR.checkedNode hr]
    simp only [Outcome.bind_ok]
    obtain ⟨fl, h1, h2, h3⟩ := hg.free
    cases fl with
    | nil => exact absurd h3 hne
    | cons k fl =>
      obtain ⟨hnf, dk, hd, -⟩ := h3
      obtain ⟨hklt, hknone⟩ := (h2 k).1 (by simp)
      have hdd := hg.dead k dk hd hknone
      have hkn : n ≠ k := by rintro rfl; rw [hr] at hknone; cases hknone
      have hdep : dk.depth = -1 := by rw [hdd]
      have hgp : ∀ X, (s.grow.nodes.set k X)[n]? = some r.toNode := by
        intro X
        rw [List.getElem?_set_ne (Ne.symm hkn)]; exact hg.live n r hr
      rw [hnf, vecGet_some hd]
      simp only [Outcome.bind_ok, hdep]
      simp only [Outcome.check, show (decide ((-1 : Int) ≥ 0)) = false from rfl, Bool.not_false,
        if_true, Outcome.bind_ok]
      rw [vecSet_lt hklt]
      simp only [Outcome.bind_ok]
      rw [vecGet_some (hgp _)]
      simp only [Outcome.bind_ok]
      rw [vecGet_some (List.getElem?_set_self hklt)]
      simp only [Outcome.bind_ok]
      rw [vecSet_lt (by simpa using hklt)]
      simp only [Outcome.bind_ok]
      rw [vecGet_some (hg.cnt n ⟨r, hr⟩), hc]
      simp
  · rintro ⟨r, hr⟩ hc
    unfold MipTree.close
    rw [hR.checkedNode hr]
    simp only [Outcome.bind_ok]
    rw [vecGet_some (hR.cnt n ⟨r, hr⟩), hc]
    simp [Outcome.check]
  · rintro ⟨r, hr⟩ hc
    refine ⟨fun x => ?_, fun lo up => ?_⟩
    · unfold MipTree.setLpData
      rw [hR.checkedNode hr]
      simp only [Outcome.bind_ok]
      rw [vecGet_some (hR.cnt n ⟨r, hr⟩)]
      simp [Outcome.check, hc]
    · unfold MipTree.setImpliedBounds
      rw [hR.checkedNode hr]
      simp only [Outcome.bind_ok]
      rw [vecGet_some (hR.cnt n ⟨r, hr⟩)]
      simp [Outcome.check, hc]

/-! ## C17 -/

/-- A point respects the branching decision and the implied lower bounds recorded for a
node (mip_tree.h:66-72): an up-branch requires `x_var ≥ ⌈value⌉`. -/
def Rec.LowerOk (r : Rec) (x : Int → ℚ) : Prop :=
  (∀ cv ∈ r.lower, Dbl.le cv.2 (.fin (x cv.1)) = true) ∧
  (r.parent ≠ none → r.down = false → Dbl.le (Dbl.ceil r.value) (.fin (x r.var)) = true)

/-- Likewise for upper bounds: a down-branch requires `x_var ≤ ⌊value⌋`. -/
def Rec.UpperOk (r : Rec) (x : Int → ℚ) : Prop :=
  (∀ cv ∈ r.upper, Dbl.le (.fin (x cv.1)) cv.2 = true) ∧
  (r.parent ≠ none → r.down = true → Dbl.le (.fin (x r.var)) (Dbl.floor r.value) = true)

/-- The data recorded for a node refer to columns `0..nc-1` and contain no NaN. -/
def Rec.InRange (r : Rec) (nc : Nat) : Prop :=
  (∀ cv ∈ r.lower ++ r.upper, 0 ≤ cv.1 ∧ cv.1 < nc ∧ cv.2 ≠ .nan) ∧
  (r.parent ≠ none → 0 ≤ r.var ∧ r.var < nc ∧ r.value ≠ .nan)

/-- `x` is above (below) all bounds of a dense row. -/
def Above (b : List Dbl) (x : Int → ℚ) : Prop :=
  ∀ j v, b[j]? = some v → Dbl.le v (.fin (x (j : Nat))) = true
def Below (b : List Dbl) (x : Int → ℚ) : Prop :=
  ∀ j v, b[j]? = some v → Dbl.le (.fin (x (j : Nat))) v = true

theorem tighten {b : List Dbl} {c : Int} (h0 : 0 ≤ c) (h1 : c < b.length) (f : Dbl → Dbl) :
    ∃ old, b[c.toNat]? = some old ∧
      (do let old ← vecGet b c; vecSet b c (f old)) = .ok (b.set c.toNat (f old)) := by
  obtain ⟨k, rfl⟩ := Int.eq_ofNat_of_zero_le h0
  have hk : k < b.length := by omega
  refine ⟨b[k], by simp [hk], ?_⟩
  rw [vecGet_some (x := b[k]) (by simp [hk])]
  simp only [Outcome.bind_ok]
  rw [vecSet_lt hk]; rfl

theorem above_set {b : List Dbl} {k : Nat} {old v : Dbl} (ho : b[k]? = some old) (hv : v ≠ .nan)
    (x : Int → ℚ) :
    Above (b.set k (Dbl.max old v)) x ↔ Above b x ∧ Dbl.le v (.fin (x k)) = true := by
  have hk := (List.getElem?_eq_some_iff.1 ho).1
  unfold Above
  constructor
  · intro h
    have h1 := h k _ (List.getElem?_set_self hk)
    rw [Dbl.max_le_fin hv] at h1
    refine ⟨fun j w hj => ?_, h1.2⟩
    by_cases hjk : j = k
    · subst hjk; rw [ho] at hj; simp only [Option.some.injEq] at hj; subst hj; exact h1.1
    · exact h j w (by rw [List.getElem?_set_ne (Ne.symm hjk)]; exact hj)
  · rintro ⟨h1, h2⟩ j w hj
    by_cases hjk : j = k
    · subst hjk
      rw [List.getElem?_set_self hk] at hj; simp only [Option.some.injEq] at hj; subst hj
      rw [Dbl.max_le_fin hv]; exact ⟨h1 j old ho, h2⟩
    · rw [List.getElem?_set_ne (Ne.symm hjk)] at hj; exact h1 j w hj

theorem below_set {b : List Dbl} {k : Nat} {old v : Dbl} (ho : b[k]? = some old) (hv : v ≠ .nan)
    (x : Int → ℚ) :
    Below (b.set k (Dbl.min old v)) x ↔ Below b x ∧ Dbl.le (.fin (x k)) v = true := by
  have hk := (List.getElem?_eq_some_iff.1 ho).1
  unfold Below
  constructor
  · intro h
    have h1 := h k _ (List.getElem?_set_self hk)
    rw [Dbl.fin_le_min hv] at h1
    refine ⟨fun j w hj => ?_, h1.2⟩
    by_cases hjk : j = k
    · subst hjk; rw [ho] at hj; simp only [Option.some.injEq] at hj; subst hj; exact h1.1
    · exact h j w (by rw [List.getElem?_set_ne (Ne.symm hjk)]; exact hj)
  · rintro ⟨h1, h2⟩ j w hj
    by_cases hjk : j = k
    · subst hjk
      rw [List.getElem?_set_self hk] at hj; simp only [Option.some.injEq] at hj; subst hj
      rw [Dbl.fin_le_min hv]; exact ⟨h1 j old ho, h2⟩
    · rw [List.getElem?_set_ne (Ne.symm hjk)] at hj; exact h1 j w hj

theorem mergeLower_spec (l : List (Int × Dbl)) : ∀ (b : List Dbl),
    (∀ cv ∈ l, 0 ≤ cv.1 ∧ cv.1 < b.length ∧ cv.2 ≠ .nan) →
    ∃ b', mergeLower b l = .ok b' ∧ b'.length = b.length ∧
      ∀ x, Above b' x ↔ Above b x ∧ ∀ cv ∈ l, Dbl.le cv.2 (.fin (x cv.1)) = true := by
  induction l with
  | nil => intro b _; exact ⟨b, rfl, rfl, by simp⟩
  | cons cv l ih =>
    intro b h
    obtain ⟨h0, h1, h2⟩ := h cv (by simp)
    obtain ⟨old, ho, hs⟩ := tighten h0 h1 (fun o => Dbl.max o cv.2)
    obtain ⟨b', h3, h4, h5⟩ := ih (b.set cv.1.toNat (Dbl.max old cv.2))
      (fun dv hd => by rw [List.length_set]; exact h dv (by simp [hd]))
    refine ⟨b', ?_, by rw [h4, List.length_set], ?_⟩
    · obtain ⟨c, v⟩ := cv
      unfold mergeLower
      rw [Outcome.bind_eq_ok] at hs
      obtain ⟨o, ho1, ho2⟩ := hs
      rw [ho1]; simp only [Outcome.bind_ok]; simp only at ho2
      rw [ho2]; exact h3
    · intro x
      rw [h5 x, above_set ho h2]
      have : ((cv.1.toNat : Nat) : Int) = cv.1 := by omega
      rw [this]
      simp only [List.mem_cons, forall_eq_or_imp]
      tauto

theorem mergeUpper_spec (l : List (Int × Dbl)) : ∀ (b : List Dbl),
    (∀ cv ∈ l, 0 ≤ cv.1 ∧ cv.1 < b.length ∧ cv.2 ≠ .nan) →
    ∃ b', mergeUpper b l = .ok b' ∧ b'.length = b.length ∧
      ∀ x, Below b' x ↔ Below b x ∧ ∀ cv ∈ l, Dbl.le (.fin (x cv.1)) cv.2 = true := by
  induction l with
  | nil => intro b _; exact ⟨b, rfl, rfl, by simp⟩
  | cons cv l ih =>
    intro b h
    obtain ⟨h0, h1, h2⟩ := h cv (by simp)
    obtain ⟨old, ho, hs⟩ := tighten h0 h1 (fun o => Dbl.min o cv.2)
    obtain ⟨b', h3, h4, h5⟩ := ih (b.set cv.1.toNat (Dbl.min old cv.2))
      (fun dv hd => by rw [List.length_set]; exact h dv (by simp [hd]))
    refine ⟨b', ?_, by rw [h4, List.length_set], ?_⟩
    · obtain ⟨c, v⟩ := cv
      unfold mergeUpper
      rw [Outcome.bind_eq_ok] at hs
      obtain ⟨o, ho1, ho2⟩ := hs
      rw [ho1]; simp only [Outcome.bind_ok]; simp only at ho2
      rw [ho2]; exact h3
    · intro x
      rw [h5 x, below_set ho h2]
      have : ((cv.1.toNat : Nat) : Int) = cv.1 := by omega
      rw [this]
      simp only [List.mem_cons, forall_eq_or_imp]
      tauto

theorem anc_parent {t : ATree} {n p : Nat} (hp : t.ParentOf p n) (a : Nat) :
    t.Anc a n ↔ a = n ∨ t.Anc a p := by
  constructor
  · intro h
    rcases Relation.ReflTransGen.cases_tail h with rfl | ⟨b, hab, hb⟩
    · exact Or.inl rfl
    · obtain ⟨r, hr, hb⟩ := hb
      obtain ⟨r', hr', hp'⟩ := hp
      rw [hr] at hr'; simp only [Option.some.injEq] at hr'; subst hr'
      rw [hb] at hp'; simp only [Option.some.injEq] at hp'; subst hp'
      exact Or.inr hab
  · rintro (rfl | h)
    · exact .refl
    · exact h.tail hp

theorem anc_noparent {t : ATree} {n : Nat} {r : Rec} (hr : t n = some r) (hp : r.parent = none)
    (a : Nat) : t.Anc a n ↔ a = n := by
  constructor
  · intro h
    rcases Relation.ReflTransGen.cases_tail h with rfl | ⟨b, hab, hb⟩
    · rfl
    · obtain ⟨r', hr', hb⟩ := hb
      rw [hr] at hr'; simp only [Option.some.injEq] at hr'; subst hr'
      rw [hp] at hb; cases hb
  · rintro rfl; exact .refl

/-- The root carries no branching decision. -/
def RootPlain (t : ATree) : Prop :=
  ∀ n r, t n = some r → r.parent = none → r.var = -1 ∧ r.down = false

theorem Exec.rootPlain {st s t} (h : Exec st s t) : RootPlain t := by
  induction h with
  | init =>
    intro n r hr _
    unfold ATree.init at hr
    split at hr
    · simp only [Option.some.injEq] at hr; subst hr; simp
    · cases hr
  | @step st s t o s' out he hl hs ih =>
    intro n r hr hp
    cases o with
    | add p var down value =>
      obtain ⟨s1, k, h1, h2, -⟩ := he.rel.add hl
      simp only [MipTree.step, h1, Outcome.bind_ok, Outcome.pure_eq, Outcome.ok.injEq,
        Prod.mk.injEq] at hs
      obtain ⟨-, rfl⟩ := hs
      simp only [ATree.apply] at hr
      split at hr
      · simp only [Option.some.injEq] at hr; subst hr; simp at hp
      · exact ih n r hr hp
    | close k =>
      simp only [ATree.apply] at hr
      split at hr
      · cases hr
      · exact ih n r hr hp
    | setLp k obj =>
      simp only [ATree.apply] at hr
      split at hr
      · obtain ⟨r0, h0, rfl⟩ := Option.map_eq_some_iff.1 hr
        exact ih n r0 h0 hp
      · exact ih n r hr hp
    | setBounds k lo up =>
      simp only [ATree.apply] at hr
      split at hr
      · obtain ⟨r0, h0, rfl⟩ := Option.map_eq_some_iff.1 hr
        exact ih n r0 h0 hp
      · exact ih n r hr hp

theorem walkLower_spec {s t} (h : Rel s t) (hrp : RootPlain t) {nc : Nat} :
    ∀ (fuel n : Nat) (r : Rec) (b : List Dbl), t n = some r → r.depth < fuel → b.length = nc →
      (∀ m rm, t.Anc m n → t m = some rm → rm.InRange nc) →
      ∃ b', walkLower fuel s n b = .ok b' ∧ b'.length = nc ∧
        ∀ x, Above b' x ↔ Above b x ∧ ∀ m rm, t.Anc m n → t m = some rm → rm.LowerOk x := by
  intro fuel
  induction fuel with
  | zero => intro n r b _ hf; omega
  | succ fuel ih =>
    intro n r b hr hf hb hin
    have hInR := hin n r .refl hr
    unfold walkLower
    rw [if_neg (by omega), vecGet_some (h.live n r hr)]
    simp only [Outcome.bind_ok]
    obtain ⟨b1, hm1, hm2, hm3⟩ := mergeLower_spec r.lower b
      (fun cv hcv => by rw [hb]; exact hInR.1 cv (by simp [hcv]))
    have hlow : r.toNode.impliedLower = r.lower := rfl
    have hdn : r.toNode.branchDown = r.down := rfl
    have hvr : r.toNode.branchVariable = r.var := rfl
    have hvl : r.toNode.branchValue = r.value := rfl
    rw [hlow, hm1]
    simp only [Outcome.bind_ok]
    -- the branching decision
    have hstep : ∃ b2, branchLower b1 r.toNode = .ok b2 ∧ b2.length = nc ∧
        ∀ x, Above b2 x ↔ Above b x ∧ r.LowerOk x := by
      unfold branchLower
      simp only [hdn, hvr, hvl]
      by_cases hc : r.parent ≠ none ∧ r.down = false
      · obtain ⟨hp, hd⟩ := hc
        obtain ⟨hv0, hv1, hv2⟩ := hInR.2 hp
        obtain ⟨old, ho, hs⟩ := tighten (b := b1) hv0 (by rw [hm2, hb]; exact hv1)
          (fun o => Dbl.max o (Dbl.ceil r.value))
        rw [if_pos ⟨by simp [hd], hv0⟩, hs]
        refine ⟨_, rfl, by rw [List.length_set, hm2, hb], ?_⟩
        intro x
        rw [above_set ho (Dbl.ceil_ne_nan hv2), hm3 x]
        have : ((r.var.toNat : Nat) : Int) = r.var := by omega
        rw [this]
        unfold Rec.LowerOk
        simp [hp, hd, and_assoc]
      · have hcond : ¬ ((!r.down) = true ∧ r.var ≥ 0) := by
          rintro ⟨h1, h2⟩
          have hd : r.down = false := by simpa using h1
          have hp : r.parent = none := by
            by_contra hp; exact hc ⟨hp, hd⟩
          have := (hrp n r hr hp).1
          omega
        rw [if_neg hcond]
        refine ⟨b1, rfl, by rw [hm2, hb], ?_⟩
        intro x
        rw [hm3 x]
        unfold Rec.LowerOk
        constructor
        · rintro ⟨h1, h2⟩; exact ⟨h1, h2, fun h3 h4 => absurd ⟨h3, h4⟩ hc⟩
        · rintro ⟨h1, h2, -⟩; exact ⟨h1, h2⟩
    obtain ⟨b2, hs1, hs2, hs3⟩ := hstep
    rw [hs1]
    simp only [Outcome.bind_ok]
    have hw := h.wf n r hr
    cases hp : r.parent with
    | none =>
      have hpar : r.toNode.parent = -1 := by simp [Rec.toNode, hp]
      rw [hpar]
      have hend : walkLower fuel s (-1) b2 = .ok b2 := by cases fuel <;> simp [walkLower]
      refine ⟨b2, hend, hs2, ?_⟩
      intro x
      rw [hs3 x]
      constructor
      · rintro ⟨h1, h2⟩
        refine ⟨h1, fun m rm hm hrm => ?_⟩
        rw [(anc_noparent hr hp m).1 hm, hr] at hrm
        simp only [Option.some.injEq] at hrm; subst hrm; exact h2
      · rintro ⟨h1, h2⟩; exact ⟨h1, h2 n r .refl hr⟩
    | some p =>
      rw [hp] at hw; simp only at hw
      obtain ⟨-, rp, hrp', hdp⟩ := hw
      have hpar : r.toNode.parent = (p : Int) := by simp [Rec.toNode, hp]
      rw [hpar]
      have hpo : t.ParentOf p n := ⟨r, hr, hp⟩
      obtain ⟨b3, hw1, hw2, hw3⟩ := ih p rp b2 hrp' (by omega) hs2
        (fun m rm hm hrm => hin m rm ((anc_parent hpo m).2 (Or.inr hm)) hrm)
      refine ⟨b3, hw1, hw2, ?_⟩
      intro x
      rw [hw3 x, hs3 x]
      constructor
      · rintro ⟨⟨h1, h2⟩, h3⟩
        refine ⟨h1, fun m rm hm hrm => ?_⟩
        rcases (anc_parent hpo m).1 hm with rfl | hm
        · rw [hr] at hrm; simp only [Option.some.injEq] at hrm; subst hrm; exact h2
        · exact h3 m rm hm hrm
      · rintro ⟨h1, h2⟩
        exact ⟨⟨h1, h2 n r .refl hr⟩, fun m rm hm hrm =>
          h2 m rm ((anc_parent hpo m).2 (Or.inr hm)) hrm⟩

theorem walkUpper_spec {s t} (h : Rel s t) (hrp : RootPlain t) {nc : Nat} :
    ∀ (fuel n : Nat) (r : Rec) (b : List Dbl), t n = some r → r.depth < fuel → b.length = nc →
      (∀ m rm, t.Anc m n → t m = some rm → rm.InRange nc) →
      ∃ b', walkUpper fuel s n b = .ok b' ∧ b'.length = nc ∧
        ∀ x, Below b' x ↔ Below b x ∧ ∀ m rm, t.Anc m n → t m = some rm → rm.UpperOk x := by
  intro fuel
  induction fuel with
  | zero => intro n r b _ hf; omega
  | succ fuel ih =>
    intro n r b hr hf hb hin
    have hInR := hin n r .refl hr
    unfold walkUpper
    rw [if_neg (by omega), vecGet_some (h.live n r hr)]
    simp only [Outcome.bind_ok]
    obtain ⟨b1, hm1, hm2, hm3⟩ := mergeUpper_spec r.upper b
      (fun cv hcv => by rw [hb]; exact hInR.1 cv (by simp [hcv]))
    have hlow : r.toNode.impliedUpper = r.upper := rfl
    have hdn : r.toNode.branchDown = r.down := rfl
    have hvr : r.toNode.branchVariable = r.var := rfl
    have hvl : r.toNode.branchValue = r.value := rfl
    rw [hlow, hm1]
    simp only [Outcome.bind_ok]
    have hstep : ∃ b2, branchUpper b1 r.toNode = .ok b2 ∧ b2.length = nc ∧
        ∀ x, Below b2 x ↔ Below b x ∧ r.UpperOk x := by
      unfold branchUpper
      simp only [hdn, hvr, hvl]
      by_cases hd : r.down = true
      · have hp : r.parent ≠ none := by
          intro hp
          have := (hrp n r hr hp).2
          rw [hd] at this; cases this
        obtain ⟨hv0, hv1, hv2⟩ := hInR.2 hp
        obtain ⟨old, ho, hs⟩ := tighten (b := b1) hv0 (by rw [hm2, hb]; exact hv1)
          (fun o => Dbl.min o (Dbl.floor r.value))
        rw [if_pos hd, hs]
        refine ⟨_, rfl, by rw [List.length_set, hm2, hb], ?_⟩
        intro x
        rw [below_set ho (Dbl.floor_ne_nan hv2), hm3 x]
        have : ((r.var.toNat : Nat) : Int) = r.var := by omega
        rw [this]
        unfold Rec.UpperOk
        simp [hp, hd, and_assoc]
      · rw [if_neg hd]
        refine ⟨b1, rfl, by rw [hm2, hb], ?_⟩
        intro x
        rw [hm3 x]
        unfold Rec.UpperOk
        constructor
        · rintro ⟨h1, h2⟩; exact ⟨h1, h2, fun _ h4 => absurd h4 hd⟩
        · rintro ⟨h1, h2, -⟩; exact ⟨h1, h2⟩
    obtain ⟨b2, hs1, hs2, hs3⟩ := hstep
    rw [hs1]
    simp only [Outcome.bind_ok]
    have hw := h.wf n r hr
    cases hp : r.parent with
    | none =>
      have hpar : r.toNode.parent = -1 := by simp [Rec.toNode, hp]
      rw [hpar]
      have hend : walkUpper fuel s (-1) b2 = .ok b2 := by cases fuel <;> simp [walkUpper]
      refine ⟨b2, hend, hs2, ?_⟩
      intro x
      rw [hs3 x]
      constructor
      · rintro ⟨h1, h2⟩
        refine ⟨h1, fun m rm hm hrm => ?_⟩
        rw [(anc_noparent hr hp m).1 hm, hr] at hrm
        simp only [Option.some.injEq] at hrm; subst hrm; exact h2
      · rintro ⟨h1, h2⟩; exact ⟨h1, h2 n r .refl hr⟩
    | some p =>
      rw [hp] at hw; simp only at hw
      obtain ⟨-, rp, hrp', hdp⟩ := hw
      have hpar : r.toNode.parent = (p : Int) := by simp [Rec.toNode, hp]
      rw [hpar]
      have hpo : t.ParentOf p n := ⟨r, hr, hp⟩
      obtain ⟨b3, hw1, hw2, hw3⟩ := ih p rp b2 hrp' (by omega) hs2
        (fun m rm hm hrm => hin m rm ((anc_parent hpo m).2 (Or.inr hm)) hrm)
      refine ⟨b3, hw1, hw2, ?_⟩
      intro x
      rw [hw3 x, hs3 x]
      constructor
      · rintro ⟨⟨h1, h2⟩, h3⟩
        refine ⟨h1, fun m rm hm hrm => ?_⟩
        rcases (anc_parent hpo m).1 hm with rfl | hm
        · rw [hr] at hrm; simp only [Option.some.injEq] at hrm; subst hrm; exact h2
        · exact h3 m rm hm hrm
      · rintro ⟨h1, h2⟩
        exact ⟨⟨h1, h2 n r .refl hr⟩, fun m rm hm hrm =>
          h2 m rm ((anc_parent hpo m).2 (Or.inr hm)) hrm⟩

/-- **C17.**  In every execution, for a live node whose path data refer to existing columns
and contain no NaN, both retrievals return, and a point lies within the retrieved bounds
iff it lies within the given root bounds and satisfies the branching decision and the
implied bounds of the node and of all its ancestors.  (The root bounds may be anything,
including infinities.) -/
theorem C17_retrieved_bounds {st s t} (h : Exec st s t) {n : Nat} (hn : t.Live n)
    (lb ub : List Dbl) (hlen : lb.length = ub.length)
    (hin : ∀ m rm, t.Anc m n → t m = some rm → rm.InRange lb.length) :
    ∃ lb' ub', s.retrieveLower n lb = .ok lb' ∧ s.retrieveUpper n ub = .ok ub' ∧
      lb'.length = lb.length ∧ ub'.length = ub.length ∧
      ∀ x : Int → ℚ, (Above lb' x ∧ Below ub' x) ↔
        (Above lb x ∧ Below ub x ∧
          ∀ m rm, t.Anc m n → t m = some rm → rm.LowerOk x ∧ rm.UpperOk x) := by
  have hR := h.rel
  obtain ⟨r, hr⟩ := hn
  have hd := hR.depth_lt hr
  obtain ⟨lb', h1, h2, h3⟩ := walkLower_spec hR h.rootPlain (nc := lb.length) s.nodes.length n r lb hr
    hd rfl hin
  obtain ⟨ub', h4, h5, h6⟩ := walkUpper_spec hR h.rootPlain (nc := lb.length) s.nodes.length n r ub hr
    hd hlen.symm hin
  refine ⟨lb', ub', ?_, ?_, h2, by rw [h5, hlen], ?_⟩
  · unfold retrieveLower; rw [hR.checkedNode hr]; exact h1
  · unfold retrieveUpper; rw [hR.checkedNode hr]; exact h4
  · intro x
    rw [h3 x, h6 x]
    constructor
    · rintro ⟨⟨a, b⟩, c, d⟩
      exact ⟨a, c, fun m rm hm hrm => ⟨b m rm hm hrm, d m rm hm hrm⟩⟩
    · rintro ⟨a, b, c⟩
      exact ⟨⟨a, fun m rm hm hrm => (c m rm hm hrm).1⟩, b, fun m rm hm hrm => (c m rm hm hrm).2⟩

/-- The hypotheses of C17 are met by a node at depth 1 of a tree with two children of the
root, with one infinite and one finite root bound. -/
example : ∃ st s t, Exec st s t ∧ t.Live 1 ∧
    ∀ m rm, t.Anc m 1 → t m = some rm → rm.InRange ([.ninf, .fin 3] : List Dbl).length := by
  obtain ⟨s, t, he, h1, h2, h3, h4, h5, h6, h7, h8, h9, h10⟩ := exec_two_children
  refine ⟨_, s, t, he, h3, ?_⟩
  intro m rm hm hrm
  rcases (anc_parent h5 m).1 hm with rfl | hm
  · rw [h10] at hrm; simp only [Option.some.injEq] at hrm; subst hrm; simp [Rec.InRange]
  · rw [(anc_noparent h9 rfl m).1 hm, h9] at hrm
    simp only [Option.some.injEq] at hrm; subst hrm; simp [Rec.InRange]

/-! ## C18 -/

/-- **C18.**  Branching on a fractional value `v` of an integer variable: every integer
value satisfies exactly one of the two branching decisions `x ≤ ⌊v⌋`, `x ≥ ⌈v⌉`, and `v`
itself satisfies none.  For any value (fractional or not) every integer satisfies at least
one of them. -/
theorem C18_branching (v : ℚ) :
    (∀ k : Int, (k : ℚ) ≤ ⌊v⌋ ∨ (⌈v⌉ : ℚ) ≤ k) ∧
    ((¬ ∃ k : Int, v = k) → (∀ k : Int, ¬ ((k : ℚ) ≤ ⌊v⌋ ∧ (⌈v⌉ : ℚ) ≤ k)) ∧
      ¬ v ≤ (⌊v⌋ : ℚ) ∧ ¬ (⌈v⌉ : ℚ) ≤ v) := by
  have hf := Int.floor_le v
  have hc := Int.le_ceil v
  have hcf : ⌈v⌉ ≤ ⌊v⌋ + 1 := Int.ceil_le_floor_add_one v
  refine ⟨?_, ?_⟩
  · intro k
    by_cases hk : k ≤ ⌊v⌋
    · left; exact_mod_cast hk
    · right
      have : ⌈v⌉ ≤ k := by omega
      exact_mod_cast this
  · intro hfrac
    have h1 : ¬ v ≤ (⌊v⌋ : ℚ) := fun h => hfrac ⟨⌊v⌋, le_antisymm h hf⟩
    have h2 : ¬ (⌈v⌉ : ℚ) ≤ v := fun h => hfrac ⟨⌈v⌉, le_antisymm hc h⟩
    refine ⟨?_, h1, h2⟩
    rintro k ⟨ha, hb⟩
    exact h1 (le_trans hc (le_trans hb ha))

/-- The point lies within the bounds the tree retrieves for node `n`. -/
def Within (s : MipTree) (n : Nat) (lb ub : List Dbl) (x : Int → ℚ) : Prop :=
  ∃ lb' ub', s.retrieveLower n lb = .ok lb' ∧ s.retrieveUpper n ub = .ok ub' ∧
    Above lb' x ∧ Below ub' x

/-- **C18, on the tree.**  Let `d` and `u` be the down and up children of `p` for the same
variable and the same finite value `v`, without implied bounds.  Then a point with an
integer value of the variable that lies within the bounds retrieved for `p` lies within
those retrieved for `d` or for `u`; for fractional `v` not within both; points within the
children's bounds are within the parent's; and no point with `x_var = v` is in either. -/
theorem C18_children {st s t} (h : Exec st s t) {p d u : Nat} {rd ru : Rec} {var : Int} {v : ℚ}
    (hd : t d = some rd) (hu : t u = some ru) (hdp : rd.parent = some p) (hup : ru.parent = some p)
    (hdd : rd.down = true ∧ rd.var = var ∧ rd.value = .fin v ∧ rd.lower = [] ∧ rd.upper = [])
    (huu : ru.down = false ∧ ru.var = var ∧ ru.value = .fin v ∧ ru.lower = [] ∧ ru.upper = [])
    (lb ub : List Dbl) (hlen : lb.length = ub.length) (hvar : 0 ≤ var ∧ var < lb.length)
    (hin : ∀ m rm, t.Anc m p → t m = some rm → rm.InRange lb.length) (x : Int → ℚ) :
    ((∃ k : Int, x var = k) → s.Within p lb ub x → s.Within d lb ub x ∨ s.Within u lb ub x) ∧
    ((s.Within d lb ub x ∨ s.Within u lb ub x) → s.Within p lb ub x) ∧
    ((¬ ∃ k : Int, v = k) → ¬ (s.Within d lb ub x ∧ s.Within u lb ub x)) ∧
    ((¬ ∃ k : Int, v = k) → x var = v → ¬ s.Within d lb ub x ∧ ¬ s.Within u lb ub x) := by
  have hpd : t.ParentOf p d := ⟨rd, hd, hdp⟩
  have hpu : t.ParentOf p u := ⟨ru, hu, hup⟩
  have hlp : t.Live p := by
    have := h.rel.wf d rd hd
    rw [hdp] at this; simp only at this
    obtain ⟨-, rp, hrp, -⟩ := this; exact ⟨rp, hrp⟩
  have hrd : rd.InRange lb.length := by
    obtain ⟨h1, h2, h3, h4, h5⟩ := hdd
    simp [Rec.InRange, h2, h3, h4, h5, hvar.1, hvar.2]
  have hru : ru.InRange lb.length := by
    obtain ⟨h1, h2, h3, h4, h5⟩ := huu
    simp [Rec.InRange, h2, h3, h4, h5, hvar.1, hvar.2]
  have ext : ∀ c rc, t c = some rc → t.ParentOf p c → rc.InRange lb.length →
      ∀ m rm, t.Anc m c → t m = some rm → rm.InRange lb.length := by
    intro c rc hc hpc hr m rm hm hrm
    rcases (anc_parent hpc m).1 hm with rfl | hm
    · rw [hc] at hrm; simp only [Option.some.injEq] at hrm; subst hrm; exact hr
    · exact hin m rm hm hrm
  have within : ∀ n, t.Live n → (∀ m rm, t.Anc m n → t m = some rm → rm.InRange lb.length) →
      (s.Within n lb ub x ↔ Above lb x ∧ Below ub x ∧
          ∀ m rm, t.Anc m n → t m = some rm → rm.LowerOk x ∧ rm.UpperOk x) := by
    intro n hn hi
    obtain ⟨lb', ub', h1, h2, -, -, h5⟩ := C17_retrieved_bounds h hn lb ub hlen hi
    rw [← h5 x]
    constructor
    · rintro ⟨l, u, h6, h7, h8, h9⟩
      rw [h1] at h6; rw [h2] at h7
      simp only [Outcome.ok.injEq] at h6 h7; subst h6 h7; exact ⟨h8, h9⟩
    · rintro ⟨h8, h9⟩; exact ⟨lb', ub', h1, h2, h8, h9⟩
  have hwp := within p hlp hin
  have split : ∀ c rc, t c = some rc → t.ParentOf p c → rc.InRange lb.length →
      (s.Within c lb ub x ↔ s.Within p lb ub x ∧ rc.LowerOk x ∧ rc.UpperOk x) := by
    intro c rc hc hpc hr
    rw [within c ⟨rc, hc⟩ (ext c rc hc hpc hr), hwp]
    constructor
    · rintro ⟨h1, h2, h3⟩
      exact ⟨⟨h1, h2, fun m rm hm hrm => h3 m rm ((anc_parent hpc m).2 (Or.inr hm)) hrm⟩,
        h3 c rc .refl hc⟩
    · rintro ⟨⟨h1, h2, h3⟩, h4⟩
      refine ⟨h1, h2, fun m rm hm hrm => ?_⟩
      rcases (anc_parent hpc m).1 hm with rfl | hm
      · rw [hc] at hrm; simp only [Option.some.injEq] at hrm; subst hrm; exact h4
      · exact h3 m rm hm hrm
  have hD : s.Within d lb ub x ↔ s.Within p lb ub x ∧ x var ≤ (⌊v⌋ : ℚ) := by
    rw [split d rd hd hpd hrd]
    obtain ⟨h1, h2, h3, h4, h5⟩ := hdd
    simp [Rec.LowerOk, Rec.UpperOk, h1, h2, h3, h4, h5, hdp, Dbl.floor]
  have hU : s.Within u lb ub x ↔ s.Within p lb ub x ∧ (⌈v⌉ : ℚ) ≤ x var := by
    rw [split u ru hu hpu hru]
    obtain ⟨h1, h2, h3, h4, h5⟩ := huu
    simp [Rec.LowerOk, Rec.UpperOk, h1, h2, h3, h4, h5, hup, Dbl.ceil]
  obtain ⟨hall, hfr⟩ := C18_branching v
  have hc := Int.le_ceil v
  refine ⟨?_, ?_, ?_, ?_⟩
  · rintro ⟨k, hk⟩ hp
    rw [hD, hU, hk]
    rcases hall k with h1 | h1
    · exact Or.inl ⟨hp, h1⟩
    · exact Or.inr ⟨hp, h1⟩
  · rintro (h1 | h1)
    · exact (hD.1 h1).1
    · exact (hU.1 h1).1
  · rintro hf ⟨h1, h2⟩
    exact (hfr hf).2.1 (le_trans hc (le_trans (hU.1 h2).2 (hD.1 h1).2))
  · intro hf hxv
    rw [hD, hU, hxv]
    exact ⟨fun h1 => (hfr hf).2.1 h1.2, fun h1 => (hfr hf).2.2 h1.2⟩

end MipTree
end MiniMip
