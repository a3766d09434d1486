import Verif.Model.MipTree
import Mathlib.Data.Set.Card
import Mathlib.Logic.Relation
import Mathlib.Logic.Function.Basic

/-!
# Specification of the search tree, and the refinement invariant

The specification `ATree` is a partial map from node numbers to records; it knows nothing
about slots, free lists or counters.
-/

namespace MiniMip

theorem vecGet_some {α : Type} {l : List α} {i : Nat} {x : α} (h : l[i]? = some x) :
    vecGet l (i : Int) = .ok x := by simp [vecGet, h]

theorem vecSet_lt {α : Type} {l : List α} {i : Nat} (h : i < l.length) (x : α) :
    vecSet l (i : Int) x = .ok (l.set i x) := by simp [vecSet, h]

namespace MipTree

/-- What the specification knows about a live node. -/
structure Rec where
  parent : Option Nat
  depth : Nat
  var : Int
  down : Bool
  value : Dbl
  obj : Dbl
  lower : List (Int × Dbl)
  upper : List (Int × Dbl)

/-- Specification state: the live nodes. -/
abbrev ATree := Nat → Option Rec

/-- The node data that `node(n)` must show for a record. -/
def Rec.toNode (r : Rec) : NodeData :=
  { parent := match r.parent with | none => -1 | some p => p
    depth := r.depth
    branchVariable := r.var
    branchDown := r.down
    branchValue := r.value
    lpObjective := r.obj
    impliedLower := r.lower
    impliedUpper := r.upper }

namespace ATree

def Live (t : ATree) (n : Nat) : Prop := ∃ r, t n = some r

/-- `p` is the parent of `m`. -/
def ParentOf (t : ATree) (p m : Nat) : Prop := ∃ r, t m = some r ∧ r.parent = some p

def Children (t : ATree) (n : Nat) : Set Nat := {m | t.ParentOf n m}

/-- `a` is `d` or an ancestor of `d`. -/
def Anc (t : ATree) (a d : Nat) : Prop := Relation.ReflTransGen t.ParentOf a d

/-- The nodes that closing `n` must reclaim: `n` and the ancestors of `n` all of whose live
descendants lie on the path to `n` (nobody, if `n` itself has children). -/
def Removed (t : ATree) (n m : Nat) : Prop :=
  t.Anc m n ∧ ∀ d, t.Live d → t.Anc m d → t.Anc d n

/-- Number of live nodes. -/
noncomputable def count (t : ATree) : Nat := {m | t.Live m}.ncard

/-- Initially only the root is live. -/
def init : ATree := fun n =>
  if n = 0 then some ⟨none, 0, -1, false, .fin 0, .ninf, [], []⟩ else none

/-- Well-formedness of the specification state. -/
def WF (t : ATree) : Prop :=
  ∀ m r, t m = some r →
    match r.parent with
    | none => m = 0 ∧ r.depth = 0
    | some p => m ≠ 0 ∧ ∃ rp, t p = some rp ∧ r.depth = rp.depth + 1

end ATree

open ATree

/-- The free list, followed from `nf` through the `parent` links. -/
def FreeChain (nodes : List NodeData) : Int → List Nat → Prop
  | nf, [] => nf = -1
  | nf, m :: fl => nf = m ∧ ∃ d, nodes[m]? = some d ∧ FreeChain nodes d.parent fl

theorem FreeChain.congr {nodes nodes' : List NodeData} {nf : Int} {fl : List Nat}
    (h : FreeChain nodes nf fl) (hc : ∀ m ∈ fl, ∀ d, nodes[m]? = some d → nodes'[m]? = some d) :
    FreeChain nodes' nf fl := by
  induction fl generalizing nf with
  | nil => exact h
  | cons m fl ih =>
    obtain ⟨h1, d, h2, h3⟩ := h
    exact ⟨h1, d, hc m (by simp) d h2, ih h3 (fun k hk => hc k (by simp [hk]))⟩

/-- The refinement invariant. -/
structure Rel (s : MipTree) (t : ATree) : Prop where
  len : s.openChildren.length = s.nodes.length
  dom : ∀ m, t.Live m → m < s.nodes.length
  live : ∀ m r, t m = some r → s.nodes[m]? = some r.toNode
  dead : ∀ m d, s.nodes[m]? = some d → t m = none → d = { ({} : NodeData) with parent := d.parent }
  cnt : ∀ m, t.Live m → s.openChildren[m]? = some ((t.Children m).ncard : Int)
  two : ∀ m, (t.Children m).ncard ≤ 2
  free : ∃ fl : List Nat, fl.Nodup ∧ (∀ m, m ∈ fl ↔ m < s.nodes.length ∧ t m = none) ∧
    FreeChain s.nodes s.nextFree fl
  wf : t.WF
  head : t 0 = none → s.nextFree = 0
  empty : t 0 = none → ∀ m, t m = none

theorem Rel.children_finite {s t} (h : Rel s t) (n : Nat) : (t.Children n).Finite := by
  refine (Set.finite_lt_nat s.nodes.length).subset ?_
  rintro m ⟨r, hr, -⟩
  exact h.dom m ⟨r, hr⟩

theorem Rel.live_finite {s t} (h : Rel s t) : {m | t.Live m}.Finite := by
  refine (Set.finite_lt_nat s.nodes.length).subset ?_
  intro m hm; exact h.dom m hm

theorem Rel.count_remove {s t} (h : Rel s t) {n r} (hr : t n = some r) :
    ATree.count (Function.update t n none) + 1 = t.count := by
  unfold ATree.count
  have : {m | ATree.Live (Function.update t n none) m} = {m | t.Live m} \ {n} := by
    ext m
    simp only [Set.mem_ofPred_eq, Set.mem_sdiff, Set.mem_singleton_iff, ATree.Live]
    by_cases hm : m = n
    · subst hm; simp
    · simp [hm]
  rw [this]
  exact Set.ncard_sdiff_singleton_add_one (show n ∈ {m | t.Live m} from ⟨r, hr⟩) h.live_finite

theorem Rel.count_add {s t} (h : Rel s t) {n} (hn : t n = none) (r : Rec) :
    ATree.count (Function.update t n (some r)) = t.count + 1 := by
  unfold ATree.count
  have : {m | ATree.Live (Function.update t n (some r)) m} = insert n {m | t.Live m} := by
    ext m
    simp only [Set.mem_ofPred_eq, Set.mem_insert_iff, ATree.Live]
    by_cases hm : m = n
    · subst hm; simp
    · simp [hm]
  rw [this, Set.ncard_insert_of_notMem _ h.live_finite]
  rintro ⟨r', hr'⟩
  rw [hn] at hr'; cases hr'

theorem Rel.count_update {s t} (_h : Rel s t) {n r0} (hn : t n = some r0) (r : Rec) :
    ATree.count (Function.update t n (some r)) = t.count := by
  unfold ATree.count
  congr 1
  ext m
  simp only [Set.mem_ofPred_eq, ATree.Live]
  by_cases hm : m = n
  · subst hm; simp [hn]
  · simp [hm]

theorem ncard_Iio (n : Nat) : (Set.Iio n).ncard = n := by
  rw [← Finset.coe_range, Set.ncard_coe_finset, Finset.card_range]

theorem Rel.count_le {s t} (h : Rel s t) : t.count ≤ s.nodes.length := by
  have := Set.ncard_le_ncard (s := {m | t.Live m}) (t := Set.Iio s.nodes.length)
    (fun m hm => h.dom m hm) (Set.finite_lt_nat _)
  rw [ncard_Iio] at this; exact this

/-- Slots are only added when every slot is taken. -/
theorem Rel.grow_length {s t} (h : Rel s t) :
    s.grow.nodes.length = if t.count = s.nodes.length then s.nodes.length + 1
      else s.nodes.length := by
  obtain ⟨fl, h1, h2, h3⟩ := h.free
  have key : s.nextFree = -1 ↔ t.count = s.nodes.length := by
    cases fl with
    | nil =>
      refine ⟨fun _ => ?_, fun _ => h3⟩
      have : {m | t.Live m} = Set.Iio s.nodes.length := by
        ext m
        simp only [Set.mem_ofPred_eq, Set.mem_Iio]
        refine ⟨h.dom m, fun hm => ?_⟩
        by_contra hl
        have : t m = none := by
          cases hh : t m with
          | none => rfl
          | some r => exact absurd ⟨r, hh⟩ hl
        simpa using (h2 m).2 ⟨hm, this⟩
      unfold ATree.count
      rw [this, ncard_Iio]
    | cons n fl =>
      obtain ⟨h4, -⟩ := h3
      refine ⟨fun h5 => by omega, fun h5 => ?_⟩
      exfalso
      obtain ⟨h6, h7⟩ := (h2 n).1 (by simp)
      have hss : {m | t.Live m} ⊂ Set.Iio s.nodes.length := by
        refine ⟨fun m hm => h.dom m hm, fun hsub => ?_⟩
        obtain ⟨r, hr⟩ := hsub (show n ∈ Set.Iio s.nodes.length from h6)
        rw [h7] at hr; cases hr
      have := Set.ncard_lt_ncard hss (Set.finite_lt_nat _)
      unfold ATree.count at h5
      rw [ncard_Iio] at this
      omega
  unfold MipTree.grow
  by_cases hf : s.nextFree = -1
  · rw [if_pos hf, if_pos (key.1 hf)]; simp
  · rw [if_neg hf, if_neg (fun hc => hf (key.2 hc))]

theorem Rel.pos {s t} (h : Rel s t) {n} (hn : t.Live n) : t.Live 0 := by
  by_contra h0
  have : t 0 = none := by
    cases hh : t 0 with
    | none => rfl
    | some r => exact absurd ⟨r, hh⟩ h0
  have := h.empty this n
  obtain ⟨r, hr⟩ := hn
  rw [this] at hr; cases hr

theorem Rel.checkedNode {s t} (h : Rel s t) {n r} (hr : t n = some r) :
    s.checkedNode n = .ok r.toNode := by
  have hlt := h.dom n ⟨r, hr⟩
  unfold MipTree.checkedNode
  have : (0 : Int) ≤ r.toNode.depth := by simp [Rec.toNode]
  simp [Outcome.check, hlt, vecGet_some (h.live n r hr), this]

theorem Rel.checkedNode_dead {s t} (h : Rel s t) {n : Nat} (hr : t n = none) :
    s.checkedNode n = .abort := by
  unfold MipTree.checkedNode
  by_cases hlt : n < s.nodes.length
  · have hd := h.dead n s.nodes[n] (by simp [hlt]) hr
    have hg : s.nodes[n]? = some s.nodes[n] := by simp [hlt]
    have hdep : s.nodes[n].depth = -1 := by rw [hd]
    simp [Outcome.check, hlt, vecGet_some hg, hdep]
  · simp [Outcome.check, hlt]

/-! ## Reaching the root -/

theorem Rel.depth_chain {s t} (h : Rel s t) : ∀ (k n : Nat) (r : Rec), t n = some r → r.depth = k →
    ∀ j ≤ k, ∃ m rm, t m = some rm ∧ rm.depth = j := by
  intro k
  induction k with
  | zero => intro n r hr hd j hj; exact ⟨n, r, hr, by omega⟩
  | succ k ih =>
    intro n r hr hd j hj
    by_cases hjk : j = k + 1
    · exact ⟨n, r, hr, by omega⟩
    · have hw := h.wf n r hr
      cases hp : r.parent with
      | none => rw [hp] at hw; simp only at hw; omega
      | some p =>
        rw [hp] at hw; simp only at hw
        obtain ⟨-, rp, hrp, hdp⟩ := hw
        exact ih p rp hrp (by omega) j (by omega)

theorem Rel.depth_lt {s t} (h : Rel s t) {n r} (hr : t n = some r) :
    r.depth < s.nodes.length := by
  have hc := h.depth_chain r.depth n r hr rfl
  choose f g hf hg using hc
  have : (Finset.range (r.depth + 1)).card ≤ (Finset.range s.nodes.length).card := by
    apply Finset.card_le_card_of_injOn (fun j => if hj : j ≤ r.depth then f j hj else 0)
    · intro j hj
      have hj' : j ≤ r.depth := by simpa [Nat.lt_succ_iff] using hj
      simp only [hj', dite_true, Finset.coe_range, Set.mem_Iio]
      exact h.dom _ ⟨_, hf j hj'⟩
    · intro a ha b hb hab
      have ha' : a ≤ r.depth := by simpa [Nat.lt_succ_iff] using ha
      have hb' : b ≤ r.depth := by simpa [Nat.lt_succ_iff] using hb
      simp only [ha', hb', dite_true] at hab
      have h1 := hf a ha'
      rw [hab, hf b hb'] at h1
      have := hg a ha'
      have := hg b hb'
      simp only [Option.some.injEq] at h1
      have h1' := congrArg Rec.depth h1
      omega
  simpa using this

/-- Along `Anc`, depth grows. -/
theorem ATree.Anc.depth_le {t : ATree} (hw : t.WF) {a d : Nat} (h : t.Anc a d) :
    ∀ rd, t d = some rd → ∃ ra, t a = some ra ∧ ra.depth ≤ rd.depth := by
  induction h with
  | refl => intro rd hd; exact ⟨rd, hd, le_refl _⟩
  | tail _ hbc ih =>
    intro rd hd
    obtain ⟨r, hr, hp⟩ := hbc
    rw [hr] at hd; simp only [Option.some.injEq] at hd; subst hd
    have := hw _ r hr
    rw [hp] at this; simp only at this
    obtain ⟨-, rp, hrp, hdp⟩ := this
    obtain ⟨ra, hra, hle⟩ := ih rp hrp
    exact ⟨ra, hra, by omega⟩

theorem ATree.Anc.live {t : ATree} (hw : t.WF) {a d : Nat} (h : t.Anc a d) (hd : t.Live d) :
    t.Live a := by
  obtain ⟨rd, hrd⟩ := hd
  obtain ⟨ra, hra, -⟩ := ATree.Anc.depth_le hw h rd hrd
  exact ⟨ra, hra⟩

/-! ## Removing a leaf from the specification -/

section Removal

variable {t : ATree} {n : Nat}

theorem parentOf_remove {p m : Nat} :
    ATree.ParentOf (Function.update t n none) p m ↔ t.ParentOf p m ∧ m ≠ n := by
  unfold ATree.ParentOf
  by_cases hm : m = n
  · subst hm; simp
  · simp [Function.update_of_ne hm, hm]

theorem anc_remove_mono {a d : Nat} (h : ATree.Anc (Function.update t n none) a d) : t.Anc a d :=
  Relation.ReflTransGen.mono (fun _ _ hh => (parentOf_remove.1 hh).1) _ _ h

theorem anc_remove (hleaf : ∀ d, ¬ t.ParentOf n d) {a d : Nat} (hd : d ≠ n) (h : t.Anc a d) :
    ATree.Anc (Function.update t n none) a d := by
  unfold ATree.Anc at h ⊢
  induction h with
  | refl => exact .refl
  | @tail b c _ hbc ih =>
    have hb : b ≠ n := by rintro rfl; exact hleaf c hbc
    exact (ih hb).tail (parentOf_remove.2 ⟨hbc, hd⟩)

theorem anc_leaf (hleaf : ∀ d, ¬ t.ParentOf n d) {d : Nat} (h : t.Anc n d) : d = n := by
  rcases Relation.ReflTransGen.cases_head h with rfl | ⟨c, hc, -⟩
  · rfl
  · exact absurd hc (hleaf c)

theorem removed_step (hleaf : ∀ d, ¬ t.ParentOf n d) {p : Nat} (hp : t.ParentOf p n) (hpn : p ≠ n)
    (m : Nat) :
    t.Removed n m ↔ m = n ∨ ATree.Removed (Function.update t n none) p m := by
  have hup : ∀ b, t.ParentOf b n → b = p := by
    rintro b ⟨r, hr, hb⟩
    obtain ⟨r', hr', hp'⟩ := hp
    rw [hr] at hr'; simp only [Option.some.injEq] at hr'; subst hr'
    rw [hb] at hp'; simpa using hp'
  have hanc : ∀ a, t.Anc a n ↔ a = n ∨ t.Anc a p := by
    intro a
    constructor
    · intro h
      rcases Relation.ReflTransGen.cases_tail h with rfl | ⟨b, hab, hb⟩
      · exact Or.inl rfl
      · rw [hup b hb] at hab; exact Or.inr hab
    · rintro (rfl | h)
      · exact .refl
      · exact h.tail hp
  have hlive : ∀ d, ATree.Live (Function.update t n none) d ↔ t.Live d ∧ d ≠ n := by
    intro d
    unfold ATree.Live
    by_cases hd : d = n
    · subst hd; simp
    · simp [Function.update_of_ne hd, hd]
  constructor
  · rintro ⟨h1, h2⟩
    rcases (hanc m).1 h1 with rfl | h1
    · exact Or.inl rfl
    · refine Or.inr ⟨anc_remove hleaf hpn h1, ?_⟩
      intro d hd hmd
      obtain ⟨hd1, hd2⟩ := (hlive d).1 hd
      rcases (hanc d).1 (h2 d hd1 (anc_remove_mono hmd)) with h | h
      · exact absurd h hd2
      · exact anc_remove hleaf hpn h
  · rintro (rfl | ⟨h1, h2⟩)
    · refine ⟨.refl, ?_⟩
      intro d _ hd
      rw [anc_leaf hleaf hd]; exact .refl
    · refine ⟨(hanc m).2 (Or.inr (anc_remove_mono h1)), ?_⟩
      intro d hd hmd
      by_cases hdn : d = n
      · subst hdn; exact .refl
      · exact (hanc d).2 (Or.inr (anc_remove_mono
          (h2 d ((hlive d).2 ⟨hd, hdn⟩) (anc_remove hleaf hdn hmd))))

theorem removed_root (hleaf : ∀ d, ¬ t.ParentOf n d) (hroot : ∀ b, ¬ t.ParentOf b n) (m : Nat) :
    t.Removed n m ↔ m = n := by
  constructor
  · rintro ⟨h, -⟩
    rcases Relation.ReflTransGen.cases_tail h with rfl | ⟨b, -, hb⟩
    · rfl
    · exact absurd hb (hroot b)
  · rintro rfl
    refine ⟨.refl, ?_⟩
    intro d _ hd
    rw [anc_leaf hleaf hd]; exact .refl

theorem removed_inner (hw : t.WF) {d : Nat} (hd : t.ParentOf n d) (m : Nat) : ¬ t.Removed n m := by
  rintro ⟨h1, h2⟩
  obtain ⟨r, hr, hp⟩ := hd
  have h3 := h2 d ⟨r, hr⟩ (h1.tail ⟨r, hr, hp⟩)
  have := hw d r hr
  rw [hp] at this; simp only at this
  obtain ⟨-, rp, hrp, hdep⟩ := this
  obtain ⟨ra, hra, hle⟩ := ATree.Anc.depth_le hw h3 rp hrp
  rw [hr] at hra; simp only [Option.some.injEq] at hra; subst hra
  omega

theorem children_remove (m : Nat) :
    ATree.Children (Function.update t n none) m = t.Children m \ {n} := by
  ext d
  simp only [ATree.Children, Set.mem_ofPred_eq, Set.mem_sdiff, Set.mem_singleton_iff]
  exact parentOf_remove

end Removal

/-- Freeing the slot of a leaf (one round of the reclaim loop). -/
theorem Rel.freeLeaf {s t} (h : Rel s t) {n r} (hr : t n = some r)
    (hleaf : ∀ d, ¬ t.ParentOf n d) (oc : List Int)
    (hoc : oc = match r.parent with
      | none => s.openChildren
      | some p => s.openChildren.set p ((t.Children p).ncard - 1 : Int)) :
    Rel ⟨s.nodes.set n { ({} : NodeData) with parent := s.nextFree }, oc, n, s.numClosed + 1⟩
      (Function.update t n none) := by
  have hn := h.dom n ⟨r, hr⟩
  have hlenoc : oc.length = s.openChildren.length := by rw [hoc]; split <;> simp
  have hlive : ∀ d, ATree.Live (Function.update t n none) d → t.Live d ∧ d ≠ n := by
    intro d
    unfold ATree.Live
    by_cases hd : d = n
    · subst hd; simp
    · simp [Function.update_of_ne hd, hd]
  refine ⟨?_, ?_, ?_, ?_, ?_, ?_, ?_, ?_, ?_, ?_⟩
  · simp [hlenoc, h.len]
  · intro m hm; simpa using h.dom m (hlive m hm).1
  · intro m rm hm
    have hmn : m ≠ n := (hlive m ⟨rm, hm⟩).2
    rw [Function.update_of_ne hmn] at hm
    simp only; rw [List.getElem?_set_ne (Ne.symm hmn)]
    exact h.live m rm hm
  · intro m d hd hm
    simp only at hd
    by_cases hmn : m = n
    · subst hmn
      rw [List.getElem?_set_self hn] at hd
      simp only [Option.some.injEq] at hd
      subst hd; rfl
    · rw [List.getElem?_set_ne (Ne.symm hmn)] at hd
      rw [Function.update_of_ne hmn] at hm
      exact h.dead m d hd hm
  · intro m hm
    obtain ⟨hml, hmn⟩ := hlive m hm
    simp only
    rw [children_remove]
    cases hp : r.parent with
    | none =>
      rw [hp] at hoc; simp only at hoc; subst hoc
      rw [Set.sdiff_singleton_eq_self]
      · exact h.cnt m hml
      · rintro ⟨r', hr', hp'⟩
        rw [hr] at hr'; simp only [Option.some.injEq] at hr'; subst hr'
        rw [hp] at hp'; simp at hp'
    | some p =>
      rw [hp] at hoc; simp only at hoc; subst hoc
      by_cases hmp : m = p
      · subst hmp
        have hlt : m < s.openChildren.length := by rw [h.len]; exact h.dom m hml
        rw [List.getElem?_set_self hlt]
        have hmem : n ∈ t.Children m := ⟨r, hr, hp⟩
        have := Set.ncard_sdiff_singleton_add_one hmem (h.children_finite m)
        congr 1
        omega
      · rw [List.getElem?_set_ne (Ne.symm hmp), Set.sdiff_singleton_eq_self]
        · exact h.cnt m hml
        · rintro ⟨r', hr', hp'⟩
          rw [hr] at hr'; simp only [Option.some.injEq] at hr'; subst hr'
          rw [hp] at hp'; simp only [Option.some.injEq] at hp'; exact hmp hp'.symm
  · intro m
    rw [children_remove]
    exact le_trans (Set.ncard_le_ncard Set.sdiff_subset (h.children_finite m)) (h.two m)
  · obtain ⟨fl, h1, h2, h3⟩ := h.free
    have hnfl : n ∉ fl := by
      intro hmem
      have := ((h2 n).1 hmem).2
      rw [hr] at this; cases this
    refine ⟨n :: fl, List.nodup_cons.2 ⟨hnfl, h1⟩, ?_, ?_⟩
    · intro m
      rw [List.mem_cons, h2 m]
      simp only [List.length_set]
      by_cases hmn : m = n
      · subst hmn; simp [hn]
      · simp [hmn]
    · refine ⟨rfl, _, List.getElem?_set_self hn, ?_⟩
      simp only
      refine h3.congr ?_
      intro m hm d hd
      rw [List.getElem?_set_ne (by rintro rfl; exact hnfl hm)]; exact hd
  · intro m rm hm
    obtain ⟨hml, hmn⟩ := hlive m ⟨rm, hm⟩
    rw [Function.update_of_ne hmn] at hm
    have := h.wf m rm hm
    cases hp : rm.parent with
    | none => rw [hp] at this; exact this
    | some p =>
      rw [hp] at this; simp only at this ⊢
      obtain ⟨h1, rp, hrp, h2⟩ := this
      have hpn : p ≠ n := by rintro rfl; exact hleaf m ⟨rm, hm, hp⟩
      exact ⟨h1, rp, by rw [Function.update_of_ne hpn]; exact hrp, h2⟩
  · intro h0
    simp only
    by_cases h0n : n = 0
    · simp [h0n]
    · rw [Function.update_of_ne (Ne.symm h0n)] at h0
      have := h.empty h0 n
      rw [hr] at this; cases this
  · intro h0 m
    by_cases h0n : n = 0
    · -- the root was a leaf, so it was the only live node
      by_cases hmn : m = n
      · subst hmn; simp
      · rw [Function.update_of_ne hmn]
        by_contra hm
        obtain ⟨rm, hrm⟩ := Option.ne_none_iff_exists'.1 hm
        -- climb from `m` to the root
        have hclimb : ∀ k a ra, t a = some ra → ra.depth = k → t.Anc 0 a := by
          intro k
          induction k with
          | zero =>
            intro a ra ha hd
            have := h.wf a ra ha
            cases hp : ra.parent with
            | none =>
              rw [hp] at this; simp only at this
              rw [this.1]; exact .refl
            | some p =>
              rw [hp] at this; simp only at this
              obtain ⟨-, rp, -, h2⟩ := this; omega
          | succ k ih =>
            intro a ra ha hd
            have := h.wf a ra ha
            cases hp : ra.parent with
            | none => rw [hp] at this; simp only at this; omega
            | some p =>
              rw [hp] at this; simp only at this
              obtain ⟨-, rp, hrp, h2⟩ := this
              exact (ih p rp hrp (by omega)).tail ⟨ra, ha, hp⟩
        have := hclimb _ m rm hrm rfl
        rw [← h0n] at this
        exact hmn (anc_leaf hleaf this)
    · rw [Function.update_of_ne (Ne.symm h0n)] at h0
      have := h.empty h0 n
      rw [hr] at this; cases this

open Classical in
theorem Rel.reclaim {fuel : Nat} : ∀ {s t n r}, Rel s t → t n = some r → r.depth < fuel →
    ∃ s', MipTree.reclaim fuel s n = .ok s' ∧
      Rel s' (fun m => if t.Removed n m then none else t m) ∧
      s'.nodes.length = s.nodes.length ∧
      s'.numClosed + (ATree.count (fun m => if t.Removed n m then none else t m) : Int) =
        s.numClosed + (t.count : Int) := by
  induction fuel with
  | zero => intro s t n r _ _ hf; omega
  | succ fuel ih =>
    intro s t n r h hr hf
    have hn := h.dom n ⟨r, hr⟩
    unfold MipTree.reclaim
    rw [vecGet_some (h.cnt n ⟨r, hr⟩)]
    simp only [Outcome.bind_ok]
    by_cases hc : (t.Children n).ncard = 0
    · rw [if_neg (by omega)]
      have hempty : t.Children n = ∅ := (Set.ncard_eq_zero (h.children_finite n)).1 hc
      have hleaf : ∀ d, ¬ t.ParentOf n d := by
        intro d hd
        have : d ∈ t.Children n := hd
        rw [hempty] at this; exact this
      rw [vecGet_some (h.live n r hr), vecSet_lt hn]
      simp only [Outcome.bind_ok]
      have hw := h.wf n r hr
      cases hp : r.parent with
      | none =>
        have hpar : r.toNode.parent = -1 := by simp [Rec.toNode, hp]
        rw [hpar]
        simp only [ne_eq, not_true_eq_false, if_false, if_true, Outcome.pure_eq, Outcome.bind_ok]
        refine ⟨_, rfl, ?_⟩
        have hR := h.freeLeaf hr hleaf s.openChildren (by rw [hp])
        have heq : (fun m => if t.Removed n m then none else t m) = Function.update t n none := by
          funext m
          rw [removed_root hleaf]
          · by_cases hm : m = n
            · subst hm; simp
            · simp [hm]
          · rintro b ⟨r', hr', hb⟩
            rw [hr] at hr'; simp only [Option.some.injEq] at hr'; subst hr'
            rw [hp] at hb; simp at hb
        rw [heq]
        refine ⟨hR, by simp, ?_⟩
        have := h.count_remove hr
        simp only; omega
      | some p =>
        rw [hp] at hw; simp only at hw
        obtain ⟨-, rp, hrp, hdp⟩ := hw
        have hpar : r.toNode.parent = (p : Int) := by simp [Rec.toNode, hp]
        rw [hpar]
        have hpne : ((p : Int) ≠ -1) := by omega
        have hpl : p < s.openChildren.length := by rw [h.len]; exact h.dom p ⟨rp, hrp⟩
        simp only [hpne, ne_eq, not_false_eq_true, if_true, if_false]
        rw [vecGet_some (h.cnt p ⟨rp, hrp⟩)]
        simp only [Outcome.bind_ok]
        rw [vecSet_lt hpl]
        simp only [Outcome.bind_ok]
        have hR := h.freeLeaf hr hleaf (s.openChildren.set p ((t.Children p).ncard - 1 : Int))
          (by rw [hp])
        have hpn : p ≠ n := by
          rintro rfl
          rw [hr] at hrp; simp only [Option.some.injEq] at hrp; subst hrp; omega
        obtain ⟨s', h1, h2, h3, h4⟩ := ih hR (n := p) (r := rp)
          (by rw [Function.update_of_ne hpn]; exact hrp) (by omega)
        refine ⟨s', h1, ?_⟩
        have heq : (fun m => if t.Removed n m then none else t m) =
            (fun m => if ATree.Removed (Function.update t n none) p m then none
              else Function.update t n none m) := by
          funext m
          rw [removed_step hleaf ⟨r, hr, hp⟩ hpn]
          by_cases hm : m = n
          · subst hm; simp
          · simp [hm]
        rw [heq]
        refine ⟨h2, by rw [h3]; simp, ?_⟩
        have := h.count_remove hr
        simp only at h4
        omega
    · rw [if_pos (by omega)]
      refine ⟨s, rfl, ?_⟩
      have hne : (t.Children n).Nonempty := by
        rw [← Set.ncard_pos (h.children_finite n)]; omega
      obtain ⟨d, hd⟩ := hne
      have heq : (fun m => if t.Removed n m then none else t m) = t := by
        funext m; rw [if_neg (removed_inner h.wf hd m)]
      rw [heq]; exact ⟨h, rfl, rfl⟩

/-! ## Growth and addition -/

theorem Rel.grow {s t} (h : Rel s t) {n} (hn : t.Live n) :
    Rel s.grow t ∧ s.grow.nextFree ≠ -1 := by
  unfold MipTree.grow
  by_cases hf : s.nextFree = -1
  · rw [if_pos hf]
    refine ⟨⟨?_, ?_, ?_, ?_, ?_, h.two, ?_, h.wf, ?_, h.empty⟩, ?_⟩
    · simp [h.len]
    · intro m hm; have := h.dom m hm; simp; omega
    · intro m r hr
      have := h.dom m ⟨r, hr⟩
      simp only; rw [List.getElem?_append_left this]; exact h.live m r hr
    · intro m d hd hm
      simp only at hd
      by_cases hlt : m < s.nodes.length
      · rw [List.getElem?_append_left hlt] at hd; exact h.dead m d hd hm
      · rw [List.getElem?_append_right (by omega)] at hd
        have := List.mem_of_getElem? hd
        simp at this; subst this; rfl
    · intro m hm
      have := h.dom m hm
      simp only; rw [List.getElem?_append_left (by rw [h.len]; exact this)]; exact h.cnt m hm
    · obtain ⟨fl, h1, h2, h3⟩ := h.free
      have hfl : fl = [] := by
        cases fl with
        | nil => rfl
        | cons a fl => obtain ⟨h4, -⟩ := h3; omega
      subst hfl
      refine ⟨[s.nodes.length], by simp, ?_, ?_⟩
      · intro m
        simp only [List.mem_singleton, List.length_append, List.length_cons, List.length_nil]
        constructor
        · rintro rfl
          refine ⟨by omega, ?_⟩
          by_contra hne
          have := h.dom s.nodes.length (Option.ne_none_iff_exists'.1 hne)
          omega
        · rintro ⟨h4, h5⟩
          by_contra hne
          have := (h2 m).2 ⟨by omega, h5⟩
          simp at this
      · exact ⟨rfl, {}, by simp, rfl⟩
    · intro h0
      obtain ⟨r, hr⟩ := hn
      have := h.empty h0 n; rw [hr] at this; cases this
    · simp only; omega
  · rw [if_neg hf]; exact ⟨h, hf⟩

theorem Rel.update_live {s t} (h : Rel s t) {n r r'} (hr : t n = some r)
    (hp : r'.parent = r.parent) (hd : r'.depth = r.depth) :
    Rel { s with nodes := s.nodes.set n r'.toNode } (Function.update t n (some r')) := by
  have hn := h.dom n ⟨r, hr⟩
  have hpo : ∀ p m, ATree.ParentOf (Function.update t n (some r')) p m ↔ t.ParentOf p m := by
    intro p m
    unfold ATree.ParentOf
    by_cases hm : m = n
    · subst hm; simp [hr, hp]
    · simp [Function.update_of_ne hm]
  have hch : ∀ m, ATree.Children (Function.update t n (some r')) m = t.Children m := by
    intro m; ext d; exact hpo m d
  have hlive : ∀ m, ATree.Live (Function.update t n (some r')) m ↔ t.Live m := by
    intro m
    unfold ATree.Live
    by_cases hm : m = n
    · subst hm; simp [hr]
    · simp [Function.update_of_ne hm]
  have hnone : ∀ m, Function.update t n (some r') m = none ↔ t m = none := by
    intro m
    by_cases hm : m = n
    · subst hm; simp [hr]
    · simp [Function.update_of_ne hm]
  refine ⟨?_, ?_, ?_, ?_, ?_, ?_, ?_, ?_, ?_, ?_⟩
  · simp [h.len]
  · intro m hm; simpa using h.dom m ((hlive m).1 hm)
  · intro m rm hm
    simp only
    by_cases hmn : m = n
    · subst hmn
      rw [List.getElem?_set_self hn]
      simp at hm; rw [hm]
    · rw [Function.update_of_ne hmn] at hm
      rw [List.getElem?_set_ne (Ne.symm hmn)]; exact h.live m rm hm
  · intro m d hd' hm
    rw [hnone] at hm
    have hmn : m ≠ n := by rintro rfl; rw [hr] at hm; cases hm
    simp only at hd'
    rw [List.getElem?_set_ne (Ne.symm hmn)] at hd'
    exact h.dead m d hd' hm
  · intro m hm; rw [hch]; exact h.cnt m ((hlive m).1 hm)
  · intro m; rw [hch]; exact h.two m
  · obtain ⟨fl, h1, h2, h3⟩ := h.free
    refine ⟨fl, h1, ?_, ?_⟩
    · intro m; rw [h2 m, hnone]; simp
    · refine h3.congr ?_
      intro m hm d hd'
      have hmn : n ≠ m := by rintro rfl; have := ((h2 n).1 hm).2; rw [hr] at this; cases this
      rw [List.getElem?_set_ne hmn]; exact hd'
  · intro m rm hm
    have hex : ∀ p rp, t p = some rp → ∃ rp', Function.update t n (some r') p = some rp' ∧
        rp'.depth = rp.depth := by
      intro p rp hrp
      by_cases hpn : p = n
      · subst hpn
        rw [hr] at hrp; simp only [Option.some.injEq] at hrp; subst hrp
        exact ⟨r', by simp, hd⟩
      · exact ⟨rp, by rw [Function.update_of_ne hpn]; exact hrp, rfl⟩
    have key : ∀ rm0, t m = some rm0 → rm0.parent = rm.parent → rm0.depth = rm.depth →
        match rm.parent with
        | none => m = 0 ∧ rm.depth = 0
        | some p => m ≠ 0 ∧ ∃ rp, Function.update t n (some r') p = some rp ∧
            rm.depth = rp.depth + 1 := by
      intro rm0 h0 hp0 hd0
      have := h.wf m rm0 h0
      rw [hp0, hd0] at this
      cases hpp : rm.parent with
      | none => rw [hpp] at this; exact this
      | some p =>
        rw [hpp] at this; simp only at this ⊢
        obtain ⟨h1, rp, hrp, h2⟩ := this
        obtain ⟨rp', h3, h4⟩ := hex p rp hrp
        exact ⟨h1, rp', h3, by omega⟩
    by_cases hmn : m = n
    · subst hmn
      simp at hm; subst hm
      exact key r hr hp.symm hd.symm
    · rw [Function.update_of_ne hmn] at hm
      exact key rm hm rfl rfl
  · intro h0; exact h.head ((hnone 0).1 h0)
  · intro h0 m; rw [hnone]; exact h.empty ((hnone 0).1 h0) m

/-- The record of a freshly added node. -/
def freshRec (p depth : Nat) (var : Int) (down : Bool) (value : Dbl) : Rec :=
  ⟨some p, depth, var, down, value, .ninf, [], []⟩

theorem Rel.addNode {s t} (h : Rel s t) {p rp} (hp : t p = some rp)
    (hle : (t.Children p).ncard ≤ 1) (var : Int) (down : Bool) (value : Dbl) :
    ∃ s' n, MipTree.addNode s p var down value = .ok (s', ((n : Nat) : Int)) ∧ t n = none ∧
      Rel s' (Function.update t n (some (freshRec p (rp.depth + 1) var down value))) ∧
      s'.numClosed = s.numClosed ∧ s'.nodes.length = s.grow.nodes.length := by
  obtain ⟨hg, hne⟩ := h.grow ⟨rp, hp⟩
  set g := s.grow with hgdef
  obtain ⟨fl, h1, h2, h3⟩ := hg.free
  cases fl with
  | nil => exact absurd h3 hne
  | cons n fl =>
    obtain ⟨hnf, d, hd, hchain⟩ := h3
    obtain ⟨hnlt, hnone⟩ := (h2 n).1 (by simp)
    have hdd := hg.dead n d hd hnone
    have hpn : p ≠ n := by rintro rfl; rw [hp] at hnone; cases hnone
    have hplt := hg.dom p ⟨rp, hp⟩
    set R := freshRec p (rp.depth + 1) var down value with hR
    refine ⟨⟨g.nodes.set n R.toNode, (g.openChildren.set p ((t.Children p).ncard + 1 : Int)).set n 0,
      d.parent, s.numClosed⟩, n, ?_, hnone, ?_, rfl, by simp⟩
    · unfold MipTree.addNode
      rw [h.checkedNode hp]
      simp only [Outcome.bind_ok, ← hgdef]
      rw [hnf, vecGet_some hd]
      simp only [Outcome.bind_ok]
      have hdep : d.depth = -1 := by rw [hdd]
      rw [hdep]
      simp only [Outcome.check, show (decide ((-1 : Int) ≥ 0)) = false from rfl, Bool.not_false, if_true,
        Outcome.bind_ok]
      rw [vecSet_lt hnlt]
      simp only [Outcome.bind_ok]
      have hgp : ∀ X, (g.nodes.set n X)[p]? = some rp.toNode := by
        intro X
        rw [List.getElem?_set_ne (Ne.symm hpn)]; exact hg.live p rp hp
      rw [vecGet_some (hgp _)]
      simp only [Outcome.bind_ok]
      rw [vecGet_some (List.getElem?_set_self hnlt)]
      simp only [Outcome.bind_ok]
      rw [vecSet_lt (by simpa using hnlt)]
      simp only [Outcome.bind_ok]
      rw [vecGet_some (hg.cnt p ⟨rp, hp⟩)]
      simp only [Outcome.bind_ok]
      rw [show decide ((0 : Int) ≤ ((t.Children p).ncard : Int)) = true by simp,
        show decide (((t.Children p).ncard : Int) ≤ 1) = true by simpa using hle]
      simp only [if_true, Outcome.bind_ok]
      rw [vecSet_lt (by rw [hg.len]; exact hplt)]
      simp only [Outcome.bind_ok]
      rw [vecSet_lt (by rw [List.length_set, hg.len]; exact hnlt)]
      simp only [Outcome.bind_ok, Outcome.pure_eq, List.set_set]
      have hnd : { d with parent := (p : Int), branchVariable := var, branchDown := down, branchValue := value, depth := rp.toNode.depth + 1 } = R.toNode := by
        rw [hdd]; simp [hR, freshRec, Rec.toNode]
      have hnc : g.numClosed = s.numClosed := by rw [hgdef]; unfold MipTree.grow; split <;> rfl
      congr 1
      rw [Prod.mk.injEq]
      refine ⟨?_, rfl⟩
      rw [MipTree.mk.injEq]
      exact ⟨by rw [hnd], rfl, rfl, hnc⟩
    · have hnochild : ∀ m, ¬ t.ParentOf n m := by
        rintro m ⟨rm, hrm, hpm⟩
        have := hg.wf m rm hrm
        rw [hpm] at this; simp only at this
        obtain ⟨-, rp', hrp', -⟩ := this
        rw [hnone] at hrp'; cases hrp'
      have hpo : ∀ a m, ATree.ParentOf (Function.update t n (some R)) a m ↔
          t.ParentOf a m ∨ (m = n ∧ a = p) := by
        intro a m
        unfold ATree.ParentOf
        by_cases hm : m = n
        · subst hm; simp [hnone, hR, freshRec, eq_comm]
        · simp [Function.update_of_ne hm, hm]
      have hchne : ∀ a, a ≠ p → ATree.Children (Function.update t n (some R)) a = t.Children a := by
        intro a ha
        ext m
        simp only [ATree.Children, Set.mem_ofPred_eq, hpo]
        simp [ha]
      have hchp : ATree.Children (Function.update t n (some R)) p = insert n (t.Children p) := by
        ext m
        simp only [ATree.Children, Set.mem_ofPred_eq, hpo, Set.mem_insert_iff]
        tauto
      have hnotmem : n ∉ t.Children p := by
        rintro ⟨r, hr, -⟩; rw [hnone] at hr; cases hr
      have hcard : (ATree.Children (Function.update t n (some R)) p).ncard =
          (t.Children p).ncard + 1 := by
        rw [hchp, Set.ncard_insert_of_notMem hnotmem (hg.children_finite p)]
      have hlive : ∀ m, ATree.Live (Function.update t n (some R)) m ↔ t.Live m ∨ m = n := by
        intro m
        unfold ATree.Live
        by_cases hm : m = n
        · subst hm; simp
        · simp [Function.update_of_ne hm, hm]
      refine ⟨?_, ?_, ?_, ?_, ?_, ?_, ?_, ?_, ?_, ?_⟩
      · simp [hg.len]
      · intro m hm
        simp only [List.length_set]
        rcases (hlive m).1 hm with hm | rfl
        · exact hg.dom m hm
        · exact hnlt
      · intro m rm hm
        simp only
        by_cases hmn : m = n
        · subst hmn; simp at hm; subst hm; rw [List.getElem?_set_self hnlt]
        · rw [Function.update_of_ne hmn] at hm
          rw [List.getElem?_set_ne (Ne.symm hmn)]; exact hg.live m rm hm
      · intro m dm hdm hm
        by_cases hmn : m = n
        · subst hmn; simp at hm
        · rw [Function.update_of_ne hmn] at hm
          simp only at hdm; rw [List.getElem?_set_ne (Ne.symm hmn)] at hdm
          exact hg.dead m dm hdm hm
      · intro m hm
        simp only
        by_cases hmn : m = n
        · subst hmn
          rw [List.getElem?_set_self (by rw [List.length_set, hg.len]; exact hnlt), hchne m (Ne.symm hpn)]
          have : t.Children m = ∅ := by
            ext a; simp only [ATree.Children, Set.mem_ofPred_eq, Set.mem_empty_iff_false, iff_false]
            exact hnochild a
          rw [this]; simp
        · rw [List.getElem?_set_ne (Ne.symm hmn)]
          by_cases hmp : m = p
          · subst hmp
            rw [List.getElem?_set_self (by rw [hg.len]; exact hplt), hcard]
            push_cast; rfl
          · rw [List.getElem?_set_ne (Ne.symm hmp), hchne m hmp]
            rcases (hlive m).1 hm with hm | hm
            · exact hg.cnt m hm
            · exact absurd hm hmn
      · intro m
        by_cases hmp : m = p
        · subst hmp; rw [hcard]; omega
        · rw [hchne m hmp]; exact hg.two m
      · refine ⟨fl, (List.nodup_cons.1 h1).2, ?_, ?_⟩
        · intro m
          simp only [List.length_set]
          have := h2 m
          rw [List.mem_cons] at this
          by_cases hmn : m = n
          · subst hmn
            simp [(List.nodup_cons.1 h1).1]
          · rw [Function.update_of_ne hmn, ← this]; simp [hmn]
        · refine hchain.congr ?_
          intro m hm dm hdm
          rw [List.getElem?_set_ne (by rintro rfl; exact (List.nodup_cons.1 h1).1 hm)]
          exact hdm
      · intro m rm hm
        have hup : ∀ a ra, t a = some ra → Function.update t n (some R) a = some ra := by
          intro a ra ha
          rw [Function.update_of_ne (by rintro rfl; rw [hnone] at ha; cases ha)]; exact ha
        by_cases hmn : m = n
        · subst hmn
          simp at hm; subst hm
          simp only [hR, freshRec]
          refine ⟨?_, rp, hup p rp hp, rfl⟩
          rintro rfl
          have := hg.empty hnone p
          rw [hp] at this; cases this
        · rw [Function.update_of_ne hmn] at hm
          have := hg.wf m rm hm
          cases hpp : rm.parent with
          | none => rw [hpp] at this; exact this
          | some a =>
            rw [hpp] at this; simp only at this ⊢
            obtain ⟨h4, ra, h5, h6⟩ := this
            exact ⟨h4, ra, hup a ra h5, h6⟩
      · intro h0
        by_cases h0n : (0 : Nat) = n
        · subst h0n; simp at h0
        · rw [Function.update_of_ne h0n] at h0
          have := hg.empty h0 p; rw [hp] at this; cases this
      · intro h0
        by_cases h0n : (0 : Nat) = n
        · subst h0n; simp at h0
        · rw [Function.update_of_ne h0n] at h0
          have := hg.empty h0 p; rw [hp] at this; cases this

theorem Rel.init : Rel MipTree.init ATree.init := by
  have hl : ∀ m, ATree.init.Live m ↔ m = 0 := by
    intro m; unfold ATree.Live ATree.init; by_cases h : m = 0 <;> simp [h]
  have hch : ∀ m, ATree.Children ATree.init m = ∅ := by
    intro m; ext d
    simp only [ATree.Children, ATree.ParentOf, Set.mem_ofPred_eq, Set.mem_empty_iff_false, iff_false]
    rintro ⟨r, hr, hp⟩
    unfold ATree.init at hr
    split at hr
    · simp only [Option.some.injEq] at hr; subst hr; simp at hp
    · cases hr
  refine ⟨rfl, ?_, ?_, ?_, ?_, ?_, ?_, ?_, ?_, ?_⟩
  · intro m hm; rw [hl] at hm; subst hm; simp [MipTree.init]
  · intro m r hr
    have := (hl m).1 ⟨r, hr⟩
    subst this
    simp [ATree.init] at hr; subst hr; rfl
  · intro m d hd hm
    have h0 : m ≠ 0 := by rintro rfl; simp [ATree.init] at hm
    have h1 : m = 1 := by
      have := (List.getElem?_eq_some_iff.1 hd).1
      simp [MipTree.init] at this; omega
    subst h1
    simp [MipTree.init] at hd; subst hd; rfl
  · intro m hm; rw [hl] at hm; subst hm; rw [hch]; simp [MipTree.init]
  · intro m; rw [hch]; simp
  · refine ⟨[1], by simp, ?_, ?_⟩
    · intro m
      simp only [List.mem_singleton, MipTree.init, List.length_cons, List.length_nil, ATree.init]
      constructor
      · rintro rfl; simp
      · rintro ⟨h1, h2⟩
        by_contra hne
        have : m = 0 := by omega
        subst this; simp at h2
    · exact ⟨rfl, {}, rfl, rfl⟩
  · intro m r hr
    have := (hl m).1 ⟨r, hr⟩
    subst this
    simp [ATree.init] at hr; subst hr; simp
  · intro h0; simp [ATree.init] at h0
  · intro h0; simp [ATree.init] at h0

end MipTree
end MiniMip
