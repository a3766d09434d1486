import Verif.Props.MipTree

/-!
# C133: the queries of the search tree, with any argument

`node(n)`, `RetrieveLowerBounds(n, ..)`, `RetrieveUpperBounds(n, ..)` and `num_open_children(n)` with any integer `n` and
dense rows of any length, after any history of legal calls.  Nothing is assumed about the columns that the caller passed to
`AddNodeByBranchingFromParent` or `SetImpliedVariableBoundsInNode`, nor about the values (NaN included).
-/

namespace MiniMip
namespace MipTree

open ATree

/-- The lower bounds recorded for a node refer to columns `0..nc-1`.  An up-branch on a negative column (such as `kInvalidCol`)
records nothing. -/
def Rec.LowerColumns (r : Rec) (nc : Nat) : Prop :=
  (∀ cv ∈ r.lower, 0 ≤ cv.1 ∧ cv.1 < nc) ∧ (r.parent ≠ none → r.down = false → r.var < nc)

/-- The upper bounds recorded for a node refer to columns `0..nc-1`. -/
def Rec.UpperColumns (r : Rec) (nc : Nat) : Prop :=
  (∀ cv ∈ r.upper, 0 ≤ cv.1 ∧ cv.1 < nc) ∧ (r.parent ≠ none → r.down = true → 0 ≤ r.var ∧ r.var < nc)

/-- `n` is the number of a live node. -/
def ATree.LiveAt (t : ATree) (n : Int) : Prop := 0 ≤ n ∧ t.Live n.toNat

theorem vecGet_out {α : Type} {l : List α} {i : Int} (h : ¬ (0 ≤ i ∧ i < l.length)) : vecGet l i = .ub := by
  unfold vecGet
  split
  · have : l[i.toNat]? = none := by rw [List.getElem?_eq_none_iff]; omega
    rw [this]
  · rfl

/-- One assignment `b[c] = f(b[c])` succeeds for columns of the row, and is undefined behaviour for others. -/
theorem update_out (b : List Dbl) (c : Int) (f : Dbl → Dbl) :
    ((0 ≤ c ∧ c < b.length) → ∃ b', (do let old ← vecGet b c; vecSet b c (f old)) = .ok b' ∧ b'.length = b.length) ∧
    (¬ (0 ≤ c ∧ c < b.length) → (do let old ← vecGet b c; vecSet b c (f old)) = .ub) := by
  constructor
  · rintro ⟨h0, h1⟩
    obtain ⟨old, -, h⟩ := tighten h0 h1 f
    exact ⟨_, h, by simp⟩
  · intro h
    rw [vecGet_out h]; rfl

theorem mergeLower_cons (b : List Dbl) (c : Int) (v : Dbl) (l : List (Int × Dbl)) :
    mergeLower b ((c, v) :: l) =
      (do let old ← vecGet b c; vecSet b c (Dbl.max old v) : Outcome (List Dbl)).bind (fun b => mergeLower b l) := by
  rw [mergeLower]
  cases vecGet b c <;> rfl

theorem mergeUpper_cons (b : List Dbl) (c : Int) (v : Dbl) (l : List (Int × Dbl)) :
    mergeUpper b ((c, v) :: l) =
      (do let old ← vecGet b c; vecSet b c (Dbl.min old v) : Outcome (List Dbl)).bind (fun b => mergeUpper b l) := by
  rw [mergeUpper]
  cases vecGet b c <;> rfl

theorem mergeLower_out (l : List (Int × Dbl)) : ∀ b : List Dbl,
    ((∀ cv ∈ l, 0 ≤ cv.1 ∧ cv.1 < b.length) → ∃ b', mergeLower b l = .ok b' ∧ b'.length = b.length) ∧
    (¬ (∀ cv ∈ l, 0 ≤ cv.1 ∧ cv.1 < b.length) → mergeLower b l = .ub) := by
  induction l with
  | nil => intro b; exact ⟨fun _ => ⟨b, rfl, rfl⟩, fun h => absurd (by simp) h⟩
  | cons cv l ih =>
    obtain ⟨c, v⟩ := cv
    intro b
    rw [mergeLower_cons]
    obtain ⟨u1, u2⟩ := update_out b c (fun old => Dbl.max old v)
    by_cases hc : 0 ≤ c ∧ c < b.length
    · obtain ⟨b1, e1, l1⟩ := u1 hc
      rw [e1]
      obtain ⟨i1, i2⟩ := ih b1
      rw [l1] at i1 i2
      constructor
      · intro h; exact i1 (fun cv hcv => h cv (by simp [hcv]))
      · intro h; refine i2 (fun h' => h ?_)
        intro cv hcv
        rcases List.mem_cons.1 hcv with rfl | hcv
        · exact hc
        · exact h' cv hcv
    · rw [u2 hc]
      exact ⟨fun h => absurd (h (c, v) (by simp)) hc, fun _ => rfl⟩

theorem mergeUpper_out (l : List (Int × Dbl)) : ∀ b : List Dbl,
    ((∀ cv ∈ l, 0 ≤ cv.1 ∧ cv.1 < b.length) → ∃ b', mergeUpper b l = .ok b' ∧ b'.length = b.length) ∧
    (¬ (∀ cv ∈ l, 0 ≤ cv.1 ∧ cv.1 < b.length) → mergeUpper b l = .ub) := by
  induction l with
  | nil => intro b; exact ⟨fun _ => ⟨b, rfl, rfl⟩, fun h => absurd (by simp) h⟩
  | cons cv l ih =>
    obtain ⟨c, v⟩ := cv
    intro b
    rw [mergeUpper_cons]
    obtain ⟨u1, u2⟩ := update_out b c (fun old => Dbl.min old v)
    by_cases hc : 0 ≤ c ∧ c < b.length
    · obtain ⟨b1, e1, l1⟩ := u1 hc
      rw [e1]
      obtain ⟨i1, i2⟩ := ih b1
      rw [l1] at i1 i2
      constructor
      · intro h; exact i1 (fun cv hcv => h cv (by simp [hcv]))
      · intro h; refine i2 (fun h' => h ?_)
        intro cv hcv
        rcases List.mem_cons.1 hcv with rfl | hcv
        · exact hc
        · exact h' cv hcv
    · rw [u2 hc]
      exact ⟨fun h => absurd (h (c, v) (by simp)) hc, fun _ => rfl⟩

/-- What happens at one node. -/
theorem nodeLower_out {t : ATree} (hrp : RootPlain t) {n : Nat} {r : Rec} (hr : t n = some r) (b : List Dbl) :
    (r.LowerColumns b.length → ∃ b', (mergeLower b r.lower).bind (fun b => branchLower b r.toNode) = .ok b' ∧
      b'.length = b.length) ∧
    (¬ r.LowerColumns b.length → (mergeLower b r.lower).bind (fun b => branchLower b r.toNode) = .ub) := by
  obtain ⟨m1, m2⟩ := mergeLower_out r.lower b
  by_cases hl : ∀ cv ∈ r.lower, 0 ≤ cv.1 ∧ cv.1 < b.length
  · obtain ⟨b1, e1, l1⟩ := m1 hl
    rw [e1]
    show (r.LowerColumns b.length → ∃ b', branchLower b1 r.toNode = .ok b' ∧ b'.length = b.length) ∧
      (¬ r.LowerColumns b.length → branchLower b1 r.toNode = .ub)
    have hd : r.toNode.branchDown = r.down := rfl
    have hv : r.toNode.branchVariable = r.var := rfl
    unfold branchLower
    rw [hd, hv]
    by_cases hc : (!r.down) = true ∧ r.var ≥ 0
    · rw [if_pos hc]
      have hdn : r.down = false := by simpa using hc.1
      have hp : r.parent ≠ none := fun hp => by have := (hrp n r hr hp).1; omega
      obtain ⟨u1, u2⟩ := update_out b1 r.var (fun old => Dbl.max old (Dbl.ceil r.toNode.branchValue))
      rw [l1] at u1 u2
      constructor
      · intro h; exact u1 ⟨hc.2, h.2 hp hdn⟩
      · intro h; exact u2 (fun h' => h ⟨hl, fun _ _ => h'.2⟩)
    · rw [if_neg hc]
      refine ⟨fun _ => ⟨b1, rfl, l1⟩, fun h => absurd ⟨hl, fun _ hdn => ?_⟩ h⟩
      have : ¬ r.var ≥ 0 := fun h' => hc ⟨by simp [hdn], h'⟩
      omega
  · rw [m2 hl]
    exact ⟨fun h => absurd h.1 hl, fun _ => rfl⟩

theorem nodeUpper_out {t : ATree} (hrp : RootPlain t) {n : Nat} {r : Rec} (hr : t n = some r) (b : List Dbl) :
    (r.UpperColumns b.length → ∃ b', (mergeUpper b r.upper).bind (fun b => branchUpper b r.toNode) = .ok b' ∧
      b'.length = b.length) ∧
    (¬ r.UpperColumns b.length → (mergeUpper b r.upper).bind (fun b => branchUpper b r.toNode) = .ub) := by
  obtain ⟨m1, m2⟩ := mergeUpper_out r.upper b
  by_cases hl : ∀ cv ∈ r.upper, 0 ≤ cv.1 ∧ cv.1 < b.length
  · obtain ⟨b1, e1, l1⟩ := m1 hl
    rw [e1]
    show (r.UpperColumns b.length → ∃ b', branchUpper b1 r.toNode = .ok b' ∧ b'.length = b.length) ∧
      (¬ r.UpperColumns b.length → branchUpper b1 r.toNode = .ub)
    have hd : r.toNode.branchDown = r.down := rfl
    have hv : r.toNode.branchVariable = r.var := rfl
    unfold branchUpper
    rw [hd, hv]
    by_cases hc : r.down = true
    · rw [if_pos hc]
      have hp : r.parent ≠ none := fun hp => by have := (hrp n r hr hp).2; rw [hc] at this; cases this
      obtain ⟨u1, u2⟩ := update_out b1 r.var (fun old => Dbl.min old (Dbl.floor r.toNode.branchValue))
      rw [l1] at u1 u2
      constructor
      · intro h; exact u1 (h.2 hp hc)
      · intro h; exact u2 (fun h' => h ⟨hl, fun _ _ => h'⟩)
    · rw [if_neg hc]
      exact ⟨fun _ => ⟨b1, rfl, l1⟩, fun h => absurd ⟨hl, fun _ hdn => absurd hdn hc⟩ h⟩
  · rw [m2 hl]
    exact ⟨fun h => absurd h.1 hl, fun _ => rfl⟩

theorem walkLower_out {s t} (h : Rel s t) (hrp : RootPlain t) {nc : Nat} :
    ∀ (fuel n : Nat) (r : Rec) (b : List Dbl), t n = some r → r.depth < fuel → b.length = nc →
      ((∀ m rm, t.Anc m n → t m = some rm → rm.LowerColumns nc) →
        ∃ b', walkLower fuel s n b = .ok b' ∧ b'.length = nc) ∧
      (¬ (∀ m rm, t.Anc m n → t m = some rm → rm.LowerColumns nc) → walkLower fuel s n b = .ub) := by
  intro fuel
  induction fuel with
  | zero => intro n r b _ hf; omega
  | succ fuel ih =>
    intro n r b hr hf hb
    obtain ⟨n1, n2⟩ := nodeLower_out hrp hr b
    rw [hb] at n1 n2
    have hstep : walkLower (fuel + 1) s n b =
        ((mergeLower b r.lower).bind (fun b => branchLower b r.toNode)).bind
          (fun b => walkLower fuel s r.toNode.parent b) := by
      rw [walkLower, if_neg (by omega), vecGet_some (h.live n r hr)]
      simp only [Outcome.bind_ok]
      show (mergeLower b r.lower).bind _ = _
      cases mergeLower b r.lower <;> rfl
    rw [hstep]
    by_cases hn : r.LowerColumns nc
    · obtain ⟨b1, e1, l1⟩ := n1 hn
      rw [e1]
      show ((∀ m rm, t.Anc m n → t m = some rm → rm.LowerColumns nc) →
          ∃ b', walkLower fuel s r.toNode.parent b1 = .ok b' ∧ b'.length = nc) ∧
        (¬ (∀ m rm, t.Anc m n → t m = some rm → rm.LowerColumns nc) → walkLower fuel s r.toNode.parent b1 = .ub)
      have hw := h.wf n r hr
      cases hp : r.parent with
      | none =>
        have hpar : r.toNode.parent = -1 := by simp [Rec.toNode, hp]
        rw [hpar]
        have hend : walkLower fuel s (-1) b1 = .ok b1 := by cases fuel <;> simp [walkLower]
        refine ⟨fun _ => ⟨b1, hend, l1⟩, fun hne => absurd (fun m rm hm hrm => ?_) hne⟩
        rw [(anc_noparent hr hp m).1 hm, hr] at hrm
        simp only [Option.some.injEq] at hrm; subst hrm; exact hn
      | some p =>
        rw [hp] at hw; simp only at hw
        obtain ⟨-, rp, hrp', hdp⟩ := hw
        have hpar : r.toNode.parent = (p : Int) := by simp [Rec.toNode, hp]
        rw [hpar]
        have hpo : t.ParentOf p n := ⟨r, hr, hp⟩
        obtain ⟨i1, i2⟩ := ih p rp b1 hrp' (by omega) l1
        constructor
        · intro hall
          exact i1 (fun m rm hm hrm => hall m rm ((anc_parent hpo m).2 (Or.inr hm)) hrm)
        · intro hne
          refine i2 (fun hall => hne (fun m rm hm hrm => ?_))
          rcases (anc_parent hpo m).1 hm with rfl | hm
          · rw [hr] at hrm; simp only [Option.some.injEq] at hrm; subst hrm; exact hn
          · exact hall m rm hm hrm
    · rw [n2 hn]
      exact ⟨fun hall => absurd (hall n r .refl hr) hn, fun _ => rfl⟩

theorem walkUpper_out {s t} (h : Rel s t) (hrp : RootPlain t) {nc : Nat} :
    ∀ (fuel n : Nat) (r : Rec) (b : List Dbl), t n = some r → r.depth < fuel → b.length = nc →
      ((∀ m rm, t.Anc m n → t m = some rm → rm.UpperColumns nc) →
        ∃ b', walkUpper fuel s n b = .ok b' ∧ b'.length = nc) ∧
      (¬ (∀ m rm, t.Anc m n → t m = some rm → rm.UpperColumns nc) → walkUpper fuel s n b = .ub) := by
  intro fuel
  induction fuel with
  | zero => intro n r b _ hf; omega
  | succ fuel ih =>
    intro n r b hr hf hb
    obtain ⟨n1, n2⟩ := nodeUpper_out hrp hr b
    rw [hb] at n1 n2
    have hstep : walkUpper (fuel + 1) s n b =
        ((mergeUpper b r.upper).bind (fun b => branchUpper b r.toNode)).bind
          (fun b => walkUpper fuel s r.toNode.parent b) := by
      rw [walkUpper, if_neg (by omega), vecGet_some (h.live n r hr)]
      simp only [Outcome.bind_ok]
      show (mergeUpper b r.upper).bind _ = _
      cases mergeUpper b r.upper <;> rfl
    rw [hstep]
    by_cases hn : r.UpperColumns nc
    · obtain ⟨b1, e1, l1⟩ := n1 hn
      rw [e1]
      show ((∀ m rm, t.Anc m n → t m = some rm → rm.UpperColumns nc) →
          ∃ b', walkUpper fuel s r.toNode.parent b1 = .ok b' ∧ b'.length = nc) ∧
        (¬ (∀ m rm, t.Anc m n → t m = some rm → rm.UpperColumns nc) → walkUpper fuel s r.toNode.parent b1 = .ub)
      have hw := h.wf n r hr
      cases hp : r.parent with
      | none =>
        have hpar : r.toNode.parent = -1 := by simp [Rec.toNode, hp]
        rw [hpar]
        have hend : walkUpper fuel s (-1) b1 = .ok b1 := by cases fuel <;> simp [walkUpper]
        refine ⟨fun _ => ⟨b1, hend, l1⟩, fun hne => absurd (fun m rm hm hrm => ?_) hne⟩
        rw [(anc_noparent hr hp m).1 hm, hr] at hrm
        simp only [Option.some.injEq] at hrm; subst hrm; exact hn
      | some p =>
        rw [hp] at hw; simp only at hw
        obtain ⟨-, rp, hrp', hdp⟩ := hw
        have hpar : r.toNode.parent = (p : Int) := by simp [Rec.toNode, hp]
        rw [hpar]
        have hpo : t.ParentOf p n := ⟨r, hr, hp⟩
        obtain ⟨i1, i2⟩ := ih p rp b1 hrp' (by omega) l1
        constructor
        · intro hall
          exact i1 (fun m rm hm hrm => hall m rm ((anc_parent hpo m).2 (Or.inr hm)) hrm)
        · intro hne
          refine i2 (fun hall => hne (fun m rm hm hrm => ?_))
          rcases (anc_parent hpo m).1 hm with rfl | hm
          · rw [hr] at hrm; simp only [Option.some.injEq] at hrm; subst hrm; exact hn
          · exact hall m rm hm hrm
    · rw [n2 hn]
      exact ⟨fun hall => absurd (hall n r .refl hr) hn, fun _ => rfl⟩

/-- Numbers that are not those of live nodes fail a `CHECK`. -/
theorem Rel.checkedNode_not_live {s t} (h : Rel s t) {n : Int} (hn : ¬ t.LiveAt n) : s.checkedNode n = .abort := by
  by_cases h0 : 0 ≤ n
  · obtain ⟨k, rfl⟩ := Int.eq_ofNat_of_zero_le h0
    refine h.checkedNode_dead ?_
    by_contra hne
    obtain ⟨r, hr⟩ := Option.ne_none_iff_exists'.1 hne
    exact hn ⟨h0, r, by simpa using hr⟩
  · unfold MipTree.checkedNode
    simp [Outcome.check, h0]

/-- **C133**, `node`: with any integer, after any history, the record of a live node is returned, and every other integer ends
in a failed `CHECK`, here and in the calls that modify the tree. -/
theorem C133_node {st s t} (h : Exec st s t) (n : Int) :
    (∀ r, 0 ≤ n → t n.toNat = some r → s.node n = .ok r.toNode) ∧
    (¬ t.LiveAt n → s.node n = .abort ∧ (∀ v d x, s.addNode n v d x = .abort) ∧ s.close n = .abort ∧
      (∀ x, s.setLpData n x = .abort) ∧ ∀ lo up, s.setImpliedBounds n lo up = .abort) := by
  constructor
  · intro r h0 hr
    obtain ⟨k, rfl⟩ := Int.eq_ofNat_of_zero_le h0
    exact h.rel.checkedNode (by simpa using hr)
  · intro hn
    have := h.rel.checkedNode_not_live hn
    refine ⟨this, fun v d x => ?_, ?_, fun x => ?_, fun lo up => ?_⟩
    · unfold MipTree.addNode; rw [this]; rfl
    · unfold MipTree.close; rw [this]; rfl
    · unfold MipTree.setLpData; rw [this]; rfl
    · unfold MipTree.setImpliedBounds; rw [this]; rfl

/-- **C133**, bounds, partial: what is missing is that the columns on the path are columns of the row
(`C133_invalid_column_violated`).  For any integer, a row of any length and any values, the retrieval returns a row of the same
length if the node is live and the columns recorded on its path exist, fails a `CHECK` if the node is not live, and is undefined
behaviour otherwise. -/
theorem C133_bounds_partial {st s t} (h : Exec st s t) (n : Int) (b : List Dbl) :
    (¬ t.LiveAt n → s.retrieveLower n b = .abort ∧ s.retrieveUpper n b = .abort) ∧
    (t.LiveAt n →
      ((∀ m rm, t.Anc m n.toNat → t m = some rm → rm.LowerColumns b.length) →
        ∃ b', s.retrieveLower n b = .ok b' ∧ b'.length = b.length) ∧
      (¬ (∀ m rm, t.Anc m n.toNat → t m = some rm → rm.LowerColumns b.length) → s.retrieveLower n b = .ub) ∧
      ((∀ m rm, t.Anc m n.toNat → t m = some rm → rm.UpperColumns b.length) →
        ∃ b', s.retrieveUpper n b = .ok b' ∧ b'.length = b.length) ∧
      (¬ (∀ m rm, t.Anc m n.toNat → t m = some rm → rm.UpperColumns b.length) → s.retrieveUpper n b = .ub)) := by
  have hR := h.rel
  constructor
  · intro hn
    unfold retrieveLower retrieveUpper
    rw [hR.checkedNode_not_live hn]
    exact ⟨rfl, rfl⟩
  · rintro ⟨h0, r, hr⟩
    obtain ⟨k, rfl⟩ := Int.eq_ofNat_of_zero_le h0
    simp only [Int.ofNat_eq_natCast, Int.toNat_natCast] at hr ⊢
    have hd := hR.depth_lt hr
    unfold retrieveLower retrieveUpper
    rw [hR.checkedNode hr]
    simp only [Outcome.bind_ok]
    obtain ⟨l1, l2⟩ := walkLower_out hR h.rootPlain (nc := b.length) s.nodes.length k r b hr hd rfl
    obtain ⟨u1, u2⟩ := walkUpper_out hR h.rootPlain (nc := b.length) s.nodes.length k r b hr hd rfl
    exact ⟨l1, l2, u1, u2⟩

/-- Adding a node leaves the paths from the other nodes to the root as they are. -/
theorem anc_apply_add {t : ATree} (hw : t.WF) {p n : Nat} (hp : t.Live p) (hn : t n = none) {var down value} {a : Nat}
    (h : (t.apply (.add p var down value) (some (n : Int))).Anc a p) : t.Anc a p ∧ a ≠ n := by
  induction h using Relation.ReflTransGen.head_induction_on with
  | refl => exact ⟨.refl, by rintro rfl; obtain ⟨r, hr⟩ := hp; rw [hn] at hr; cases hr⟩
  | @head a c hac _ ih =>
    obtain ⟨r, hr, hpar⟩ := hac
    have hc : t c = some r := by simpa [ATree.apply, ih.2] using hr
    refine ⟨.head ⟨r, hc, hpar⟩ ih.1, ?_⟩
    rintro rfl
    have := hw c r hc
    rw [hpar] at this; simp only at this
    obtain ⟨-, rp, hrp, -⟩ := this
    rw [hn] at hrp; cases hrp

/-- **C133** is violated by branching on a column that does not exist: `AddNodeByBranchingFromParent` accepts `kInvalidCol` (and
any other column), `RetrieveLowerBounds` of the up-branch and of the down-branch ignore it, but `RetrieveUpperBounds` of the
down-branch writes in front of the row, whatever the row. -/
theorem C133_invalid_column_violated {st s t} (h : Exec st s t) {p : Nat}
    (hl : t.Live p ∧ (t.Children p).ncard ≤ 1) (x : Dbl) (down : Bool) :
    ∃ s' n, s.addNode p (-1) down x = .ok (s', n) ∧
      (∀ b : List Dbl, (∀ m rm, t.Anc m p → t m = some rm → rm.LowerColumns b.length) →
        ∃ b', s'.retrieveLower n b = .ok b' ∧ b'.length = b.length) ∧
      (down = true → ∀ b : List Dbl, s'.retrieveUpper n b = .ub) := by
  have hR := h.rel
  have hl' : t.Legal (.add p (-1) down x) := hl
  obtain ⟨s', n, h1, h2, h3, -⟩ := hR.add hl'
  have he := Exec.step h hl' (s' := s') (out := some (n : Int)) (by simp [MipTree.step, h1])
  obtain ⟨hlive, -⟩ := hl
  obtain ⟨rp, hrp⟩ := hlive
  have hnew : (t.apply (.add p (-1) down x) (some (n : Int))) n =
      some ⟨some p, rp.depth + 1, -1, down, x, .ninf, [], []⟩ := by simp [ATree.apply, hrp]
  refine ⟨s', n, h1, fun b hb => ?_, fun hd b => ?_⟩
  · refine ((C133_bounds_partial he n b).2 ⟨by omega, _, by simpa using hnew⟩).1 ?_
    intro m rm hm hrm
    rw [Int.toNat_natCast] at hm
    rcases (anc_parent ⟨_, hnew, rfl⟩ m).1 hm with rfl | hm
    · rw [hnew] at hrm; simp only [Option.some.injEq] at hrm; subst hrm
      exact ⟨by simp, fun _ _ => by show (-1 : Int) < b.length; omega⟩
    · obtain ⟨ha, hne⟩ := anc_apply_add hR.wf ⟨rp, hrp⟩ h2 hm
      exact hb m rm ha (by simpa [ATree.apply, hne] using hrm)
  · refine ((C133_bounds_partial he n b).2 ⟨by omega, _, by simpa using hnew⟩).2.2.2 ?_
    intro hall
    have := (hall n _ (by rw [Int.toNat_natCast]; exact .refl) hnew).2 (by simp) hd
    simp at this

/-- The hypotheses are met by the root of a new tree. -/
example : ∃ st s t, Exec st s t ∧ t.Live 0 ∧ (t.Children 0).ncard ≤ 1 ∧
    ∀ b : List Dbl, ∀ m rm, t.Anc m 0 → t m = some rm → rm.LowerColumns b.length := by
  have h0 : ATree.init 0 = some ⟨none, 0, -1, false, .fin 0, .ninf, [], []⟩ := rfl
  refine ⟨_, _, _, .init, ⟨_, h0⟩, by rw [children_empty_of_init]; simp, ?_⟩
  intro b m rm hm hrm
  rw [(anc_noparent h0 rfl m).1 hm, h0] at hrm
  simp only [Option.some.injEq] at hrm; subst hrm
  exact ⟨by simp, by simp⟩

/-- A tree with a live node, a free slot and an integer outside the storage; the path of node 1 has columns of a row of two. -/
example : ∃ st s t, Exec st s t ∧ t.LiveAt 1 ∧ ¬ t.LiveAt (-3) ∧
    (∀ m rm, t.Anc m 1 → t m = some rm → rm.LowerColumns 2 ∧ rm.UpperColumns 2) ∧
    ¬ (∀ m rm, t.Anc m 1 → t m = some rm → rm.LowerColumns 0 ∧ rm.UpperColumns 0) := by
  obtain ⟨s, t, he, h1, h2, h3, h4, h5, h6, h7, h8, h9, h10⟩ := exec_two_children
  refine ⟨_, s, t, he, ⟨by omega, h3⟩, by rintro ⟨h, -⟩; omega, ?_, ?_⟩
  · intro m rm hm hrm
    rcases (anc_parent h5 m).1 hm with rfl | hm
    · rw [h10] at hrm; simp only [Option.some.injEq] at hrm; subst hrm; simp [Rec.LowerColumns, Rec.UpperColumns]
    · rw [(anc_noparent h9 rfl m).1 hm, h9] at hrm
      simp only [Option.some.injEq] at hrm; subst hrm; simp [Rec.LowerColumns, Rec.UpperColumns]
  · intro hall
    have := hall 1 _ .refl h10
    simp [Rec.LowerColumns, Rec.UpperColumns] at this

/-- **C133** is violated by `num_open_children`, which has no check: outside the storage it reads outside the vector. -/
theorem C133_open_children_violated {st s t} (h : Exec st s t) (n : Int) :
    (¬ (0 ≤ n ∧ n < s.nodes.length) → s.numOpenChildren n = .ub) ∧ s.numOpenChildren (-1) = .ub := by
  unfold numOpenChildren
  rw [← h.rel.len]
  exact ⟨fun hn => vecGet_out hn, vecGet_out (by omega)⟩

end MipTree
end MiniMip
