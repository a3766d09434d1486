import Verif.Model.SparseMatrix
import Verif.Props.SparseVector

/-! Helper lemmas about the sparse matrix model. -/

namespace MiniMip
namespace SparseMatrix

open SparseVector (Inv Clean lastFrom)

/-- The value a (possibly uncleaned) vector stands for at index `i`. -/
def den (v : SparseVector) (i : Int) : ℚ := lastFrom (fun _ => 0) v.entries i

theorem den_clean {v : SparseVector} (h : Clean v.entries) (i : Int) : v.value i = den v i :=
  SparseVector.valueAt_eq_lastFrom h.1 i

theorem den_cleanUp (v : SparseVector) : den v.cleanUpIfNeeded = den v := by
  funext i; simp [den, SparseVector.lastFrom_cleanUp]

theorem den_empty (i : Int) : den {} i = 0 := rfl

theorem den_addEntry {v : SparseVector} (h : Inv v) {i : Int} (hi : 0 ≤ i) (x : ℚ) :
    den (v.addEntry i x) = Function.update (den v) i x := by
  funext j; unfold den; rw [SparseVector.lastFrom_addEntry h hi]

theorem cleanUp_mem {v : SparseVector} {e : Entry} (h : e ∈ v.cleanUpIfNeeded.entries) :
    e ∈ v.entries := by
  unfold SparseVector.cleanUpIfNeeded at h
  split at h
  · exact SparseVector.stableSort_mem.1 (SparseVector.compact_mem h).1
  · exact h

theorem addEntry_mem {v : SparseVector} {i : Int} {x : ℚ} {e : Entry}
    (h : e ∈ (v.addEntry i x).entries) : e ∈ v.entries ∨ e.index = i := by
  unfold SparseVector.addEntry at h
  split at h
  · rcases List.mem_append.1 h with h | h
    · exact Or.inl h
    · simp at h; subst h; exact Or.inr rfl
  · split at h
    · rcases List.mem_append.1 h with h | h
      · exact Or.inl h
      · simp at h; subst h; exact Or.inr rfl
    · split at h
      · exact Or.inl h
      · rcases List.mem_append.1 h with h | h
        · exact Or.inl h
        · simp at h; subst h; exact Or.inr rfl

/-- A list of vectors represents the function `f` (vector position, index), with all
indices below `bound`. -/
structure View (l : List SparseVector) (bound : Nat) (f : Nat → Nat → ℚ) : Prop where
  inv : ∀ v ∈ l, Inv v
  lt : ∀ v ∈ l, ∀ e ∈ v.entries, e.index < bound
  den : ∀ k v, l[k]? = some v → ∀ i : Nat, den v i = f k i

theorem View.nil (b f) : View [] b f := ⟨by simp, by simp, by simp⟩

theorem View.congr {l b f g} (h : View l b f) (hfg : ∀ k < l.length, ∀ i, f k i = g k i) :
    View l b g := by
  refine ⟨h.inv, h.lt, fun k v hk i => ?_⟩
  rw [h.den k v hk i, hfg k (List.getElem?_eq_some_iff.1 hk).1 i]

theorem View.mono {l b b' f} (h : View l b f) (hb : b ≤ b') : View l b' f :=
  ⟨h.inv, fun v hv e he => lt_of_lt_of_le (h.lt v hv e he) (by exact_mod_cast hb), h.den⟩

theorem View.set {l b f} (h : View l b f) {k : Nat} {v : SparseVector} (hi : Inv v)
    (hlt : ∀ e ∈ v.entries, e.index < b) (g : Nat → ℚ) (hg : ∀ i : Nat, SparseMatrix.den v i = g i) :
    View (l.set k v) b (fun k' i => if k' = k then g i else f k' i) := by
  refine ⟨?_, ?_, ?_⟩
  · intro u hu
    rcases List.mem_or_eq_of_mem_set hu with hu | rfl
    · exact h.inv u hu
    · exact hi
  · intro u hu
    rcases List.mem_or_eq_of_mem_set hu with hu | rfl
    · exact h.lt u hu
    · exact hlt
  · intro k' u hk i
    rw [List.getElem?_set] at hk
    split at hk
    · rename_i hkk
      split at hk
      · simp only [Option.some.injEq] at hk; subst hk; simp [hkk, hg]
      · simp at hk
    · rename_i hkk
      rw [if_neg (Ne.symm hkk)]
      exact h.den k' u hk i

theorem View.set_same {l b f} (h : View l b f) {k : Nat} {v w : SparseVector}
    (hw : l[k]? = some w) (hi : Inv v)
    (hlt : ∀ e ∈ v.entries, e.index < b) (hd : SparseMatrix.den v = SparseMatrix.den w) :
    View (l.set k v) b f := by
  refine (h.set hi hlt (f k) (fun i => by rw [hd]; exact h.den k w hw i)).congr ?_
  intro k' _ i
  by_cases hk : k' = k <;> simp [hk]

theorem View.map_cleanUp {l b f} (h : View l b f) :
    View (l.map SparseVector.cleanUpIfNeeded) b f := by
  refine ⟨?_, ?_, ?_⟩
  · intro u hu
    obtain ⟨v, hv, rfl⟩ := List.mem_map.1 hu
    exact Inv.of_clean (SparseVector.cleanUp_clean (h.inv v hv)).1
  · intro u hu e he
    obtain ⟨v, hv, rfl⟩ := List.mem_map.1 hu
    exact h.lt v hv e (cleanUp_mem he)
  · intro k u hk i
    rw [List.getElem?_map] at hk
    obtain ⟨v, hv, rfl⟩ := Option.map_eq_some_iff.1 hk
    rw [den_cleanUp]; exact h.den k v hv i

theorem View.append_empty {l b f} (h : View l b f) (n : Nat)
    (hz : ∀ k, l.length ≤ k → ∀ i, f k i = 0) :
    View (l ++ List.replicate n ({} : SparseVector)) b f := by
  refine ⟨?_, ?_, ?_⟩
  · intro v hv
    rcases List.mem_append.1 hv with hv | hv
    · exact h.inv v hv
    · rw [List.eq_of_mem_replicate hv]; exact Inv.init
  · intro v hv e he
    rcases List.mem_append.1 hv with hv | hv
    · exact h.lt v hv e he
    · rw [List.eq_of_mem_replicate hv] at he; simp at he
  · intro k v hk i
    by_cases hlt : k < l.length
    · rw [List.getElem?_append_left hlt] at hk
      exact h.den k v hk i
    · rw [List.getElem?_append_right (by omega)] at hk
      have := List.mem_of_getElem? hk
      rw [List.eq_of_mem_replicate this, hz k (by omega)]
      rfl

theorem View.take {l b f} (h : View l b f) (n : Nat) : View (l.take n) b f := by
  refine ⟨fun v hv => h.inv v (List.mem_of_mem_take hv), fun v hv => h.lt v (List.mem_of_mem_take hv), ?_⟩
  intro k v hk i
  rw [List.getElem?_take] at hk
  split at hk
  · exact h.den k v hk i
  · simp at hk

theorem resizeVec_length (l : List SparseVector) (n : Nat) : (resizeVec l n).length = n := by
  simp [resizeVec]; omega

theorem View.resize {l b f} (h : View l b f) (n : Nat)
    (hz : ∀ k, l.length ≤ k → ∀ i, f k i = 0) :
    View (resizeVec l n) b f := by
  unfold resizeVec
  by_cases hn : n ≤ l.length
  · rw [Nat.sub_eq_zero_of_le hn]; simpa using h.take n
  · rw [List.take_of_length_le (by omega)]
    exact h.append_empty _ hz

theorem View.all_clear (l : List SparseVector) (b : Nat) :
    View (l.map SparseVector.clear) b (fun _ _ => 0) := by
  refine ⟨?_, ?_, ?_⟩
  · intro u hu; obtain ⟨v, -, rfl⟩ := List.mem_map.1 hu; exact Inv.init
  · intro u hu e he; obtain ⟨v, -, rfl⟩ := List.mem_map.1 hu; simp [SparseVector.clear] at he
  · intro k u hk i
    rw [List.getElem?_map] at hk
    obtain ⟨v, -, rfl⟩ := Option.map_eq_some_iff.1 hk; rfl

/-- All vectors are clean and not marked for cleaning. -/
def AllClean (l : List SparseVector) : Prop := ∀ v ∈ l, Clean v.entries ∧ v.dirty = false

/-- Effect of adding one cleaned vector `es` of the transpose, at position `i`, to the
target. -/
theorem fillOne_spec (i : Nat) (es : List Entry) :
    ∀ (t : List SparseVector), AllClean t →
      SparseVector.StrictSorted es →
      (∀ e ∈ es, e.value ≠ 0 ∧ 0 ≤ e.index ∧ e.index < t.length) →
      (∀ v ∈ t, ∀ d ∈ v.entries, d.index < (i + 1 : Nat)) →
      (∀ e ∈ es, ∀ v, t[e.index.toNat]? = some v → ∀ d ∈ v.entries, d.index < i) →
      ∃ t', fillOne i t es = .ok t' ∧ t'.length = t.length ∧ AllClean t' ∧
        (∀ v ∈ t', ∀ d ∈ v.entries, d.index < (i + 1 : Nat)) ∧
        (∀ (j : Nat) v v', t[j]? = some v → t'[j]? = some v' → ∀ k : Int,
          den v' k = den v k + if k = i then SparseVector.valueAt es j else 0) := by
  induction es with
  | nil =>
    intro t h1 _ _ h4 _
    refine ⟨t, rfl, rfl, h1, h4, ?_⟩
    intro j v v' hv hv' k
    rw [hv] at hv'; simp only [Option.some.injEq] at hv'; subst hv'
    simp [SparseVector.valueAt_nil]
  | cons e r ih =>
    intro t h1 h2 h3 h4 h5
    have he := h3 e (by simp)
    rw [SparseVector.StrictSorted, List.pairwise_cons] at h2
    have hj : e.index.toNat < t.length := by omega
    have hjc : ((e.index.toNat : Nat) : Int) = e.index := by omega
    set j0 := e.index.toNat with hj0
    obtain ⟨v0, hv0⟩ : ∃ v0, t[j0]? = some v0 := ⟨t[j0], by simp [hj]⟩
    have hv0m : v0 ∈ t := List.mem_of_getElem? hv0
    have hv0c := h1 v0 hv0m
    have hv0I : Inv v0 := Inv.of_clean hv0c.1
    have hlast : ¬ ((i : Int) ≤ v0.lastIndex) := by
      have := (SparseVector.lastIndex_lt_iff (v := v0) (i := i) hv0c.1 (by omega)).2
        (h5 e (by simp) v0 hv0)
      omega
    have hadd : v0.addEntry i e.value = ⟨v0.entries ++ [⟨i, e.value⟩], false⟩ := by
      unfold SparseVector.addEntry
      rw [if_neg (by simp [hv0c.2]), if_neg hlast, if_neg he.1]
    set t1 := t.modify j0 (fun v => v.addEntry i e.value) with ht1
    have hget1 : ∀ j, t1[j]? = if j0 = j then (t[j]?).map (fun v => v.addEntry i e.value) else t[j]? := by
      intro j; rw [ht1, List.getElem?_modify]; split <;> simp
    have hstep : addAt t e.index i e.value = .ok t1 := by
      unfold addAt; rw [if_pos ⟨he.2.1, hj⟩]
    have hcl0 : Clean (v0.addEntry i e.value).entries ∧ (v0.addEntry i e.value).dirty = false := by
      have hI := hv0I.addEntry (i := (i : Int)) (by omega) e.value
      have hd : (v0.addEntry i e.value).dirty = false := by rw [hadd]
      exact ⟨hI.2 hd, hd⟩
    have hmem1 : ∀ v ∈ t1, v ∈ t ∨ v = v0.addEntry i e.value := by
      intro v hv
      obtain ⟨j, hj⟩ := List.mem_iff_getElem?.1 hv
      rw [hget1] at hj
      split at hj
      · rename_i hjj; subst hjj
        rw [hv0] at hj; simp only [Option.map_some, Option.some.injEq] at hj
        exact Or.inr hj.symm
      · exact Or.inl (List.mem_of_getElem? hj)
    obtain ⟨t', hr, hlen, hac, hlt, hden⟩ := ih t1
      (by
        intro v hv
        rcases hmem1 v hv with h | rfl
        · exact h1 v h
        · exact hcl0)
      h2.2
      (by
        intro x hx
        have := h3 x (by simp [hx])
        refine ⟨this.1, this.2.1, ?_⟩
        rw [ht1, List.length_modify]; exact this.2.2)
      (by
        intro v hv d hd
        rcases hmem1 v hv with h | rfl
        · exact h4 v h d hd
        · rcases addEntry_mem hd with h | h
          · exact h4 v0 hv0m d h
          · rw [h]; push_cast; omega)
      (by
        intro x hx v hv d hd
        have hne : j0 ≠ x.index.toNat := by
          have := h2.1 x hx
          have := h3 x (by simp [hx])
          omega
        rw [hget1, if_neg hne] at hv
        exact h5 x (by simp [hx]) v hv d hd)
    refine ⟨t', ?_, by rw [hlen, ht1, List.length_modify], hac, hlt, ?_⟩
    · rw [fillOne, hstep]; exact hr
    · intro j v v' hv hv' k
      by_cases hjj : j0 = j
      · subst hjj
        rw [hv0] at hv; simp only [Option.some.injEq] at hv; subst hv
        have h1j : t1[j0]? = some (v0.addEntry i e.value) := by rw [hget1, if_pos rfl, hv0]; rfl
        rw [hden j0 _ v' h1j hv' k, den_addEntry hv0I (by omega)]
        have hrest : SparseVector.valueAt r j0 = 0 :=
          SparseVector.valueAt_of_lt (fun x hx => by rw [hjc]; exact h2.1 x hx)
        rw [hrest, SparseVector.valueAt_cons, if_neg (show ¬ e.index < (j0 : Int) by omega),
          if_pos hjc.symm]
        by_cases hk : k = i
        · subst hk
          have : den v0 i = 0 := by
            unfold den
            rw [SparseVector.lastFrom_of_not_mem]
            intro d hd
            have := h5 e (by simp) v0 hv0 d hd
            omega
          simp [this]
        · rw [Function.update_of_ne hk]; simp [hk]
      · have h1j : t1[j]? = some v := by rw [hget1, if_neg hjj, hv]
        rw [hden j v v' h1j hv' k, SparseVector.valueAt_cons]
        have hjne : e.index ≠ j := by omega
        rw [if_neg hjne]
        by_cases hlt : e.index < j
        · rw [if_pos hlt]
        · rw [if_neg hlt]
          have : SparseVector.valueAt r j = 0 :=
            SparseVector.valueAt_of_lt (fun x hx => by have := h2.1 x hx; omega)
          rw [this]

theorem fill_spec (vs : List SparseVector) :
    ∀ (i : Nat) (t : List SparseVector), AllClean t → AllClean vs →
      (∀ v ∈ vs, ∀ e ∈ v.entries, e.index < t.length) →
      (∀ v ∈ t, ∀ d ∈ v.entries, d.index < i) →
      ∃ t', fill i t vs = .ok t' ∧ t'.length = t.length ∧ AllClean t' ∧
        (∀ v ∈ t', ∀ d ∈ v.entries, d.index < (i + vs.length : Nat)) ∧
        (∀ (j : Nat) v v', t[j]? = some v → t'[j]? = some v' →
          (∀ k : Int, k < i → den v' k = den v k) ∧
          (∀ (k : Nat) u, vs[k]? = some u → den v' ((i + k : Nat) : Int) = den u j)) := by
  induction vs with
  | nil =>
    intro i t h1 _ _ h4
    refine ⟨t, rfl, rfl, h1, by simpa using h4, ?_⟩
    intro j v v' hv hv'
    rw [hv] at hv'; simp only [Option.some.injEq] at hv'; subst hv'
    exact ⟨fun _ _ => rfl, by simp⟩
  | cons u r ih =>
    intro i t h1 h2 h3 h4
    have hu := h2 u (by simp)
    obtain ⟨t1, hr1, hlen1, hac1, hlt1, hden1⟩ := fillOne_spec i u.entries t h1 hu.1.1
      (fun e he => ⟨(hu.1.2 e he).1, (hu.1.2 e he).2, h3 u (by simp) e he⟩)
      (fun v hv d hd => by have := h4 v hv d hd; push_cast; omega)
      (fun e _ v hv d hd => h4 v (List.mem_of_getElem? hv) d hd)
    obtain ⟨t2, hr2, hlen2, hac2, hlt2, hden2⟩ := ih (i + 1) t1 hac1
      (fun v hv => h2 v (by simp [hv]))
      (fun v hv e he => by rw [hlen1]; exact h3 v (by simp [hv]) e he) hlt1
    refine ⟨t2, ?_, by rw [hlen2, hlen1], hac2, ?_, ?_⟩
    · rw [fill, hr1]; exact hr2
    · intro v hv d hd
      have := hlt2 v hv d hd
      simp only [List.length_cons]; push_cast at this ⊢; omega
    · intro j v v' hv hv'
      have hjl : j < t1.length := by
        rw [hlen1]; exact (List.getElem?_eq_some_iff.1 hv).1
      obtain ⟨v1, hv1⟩ : ∃ v1, t1[j]? = some v1 := ⟨t1[j], by simp [hjl]⟩
      obtain ⟨ha, hb⟩ := hden2 j v1 v' hv1 hv'
      have hc := hden1 j v v1 hv hv1
      have hzero : den v i = 0 := by
        unfold den
        rw [SparseVector.lastFrom_of_not_mem]
        intro d hd
        have := h4 v (List.mem_of_getElem? hv) d hd; omega
      refine ⟨?_, ?_⟩
      · intro k hk
        rw [ha k (by push_cast; omega), hc k, if_neg (by omega), add_zero]
      · intro k w hw
        cases k with
        | zero =>
          simp only [List.getElem?_cons_zero, Option.some.injEq] at hw
          subst hw
          rw [Nat.add_zero, ha i (by push_cast; omega), hc i, if_pos rfl, hzero, zero_add]
          exact den_clean hu.1 j
        | succ k =>
          simp only [List.getElem?_cons_succ] at hw
          have := hb k w hw
          rw [show i + (k + 1) = i + 1 + k by omega]; exact this

theorem populateFromTranspose_spec {tgt tr : List SparseVector} {f : Nat → Nat → ℚ}
    (h : View tr tgt.length f) (hz : ∀ i, tr.length ≤ i → ∀ j, f i j = 0) :
    ∃ t', populateFromTranspose tgt tr = .ok (t', tr.map SparseVector.cleanUpIfNeeded) ∧
      t'.length = tgt.length ∧ View t' tr.length (fun j i => f i j) ∧ AllClean t' := by
  have hclr : AllClean (tgt.map SparseVector.clear) := by
    intro v hv
    obtain ⟨u, -, rfl⟩ := List.mem_map.1 hv
    exact ⟨by simp [SparseVector.clear, Clean], rfl⟩
  have htr : AllClean (tr.map SparseVector.cleanUpIfNeeded) := by
    intro v hv
    obtain ⟨u, hu, rfl⟩ := List.mem_map.1 hv
    exact SparseVector.cleanUp_clean (h.inv u hu)
  have hVc := h.map_cleanUp
  obtain ⟨t', hr, hlen, hac, hlt, hden⟩ := fill_spec (tr.map SparseVector.cleanUpIfNeeded) 0
    (tgt.map SparseVector.clear) hclr htr
    (by rw [List.length_map]; exact hVc.lt)
    (by
      intro v hv d hd
      obtain ⟨u, -, rfl⟩ := List.mem_map.1 hv
      simp [SparseVector.clear] at hd)
  rw [List.length_map] at hlen
  refine ⟨t', ?_, hlen, ⟨?_, ?_, ?_⟩, hac⟩
  · unfold populateFromTranspose; simp only; rw [hr]; rfl
  · intro v hv; exact Inv.of_clean (hac v hv).1
  · intro v hv e he
    have := hlt v hv e he
    simpa using this
  · intro j v hv i
    have hjl : j < tgt.length := by rw [← hlen]; exact (List.getElem?_eq_some_iff.1 hv).1
    have hv0 : (tgt.map SparseVector.clear)[j]? = some ({} : SparseVector) := by
      rw [List.getElem?_map, List.getElem?_eq_getElem hjl]; rfl
    obtain ⟨-, hb⟩ := hden j _ v hv0 hv
    by_cases hi : i < tr.length
    · have hu : (tr.map SparseVector.cleanUpIfNeeded)[i]? = some (tr[i].cleanUpIfNeeded) := by
        rw [List.getElem?_map, List.getElem?_eq_getElem hi]; rfl
      have := hb i _ hu
      rw [Nat.zero_add] at this
      rw [this]
      exact hVc.den i _ hu j
    · rw [hz i (by omega)]
      unfold den
      rw [SparseVector.lastFrom_of_not_mem]
      intro d hd
      have := hlt v (List.mem_of_getElem? hv) d hd
      simp only [List.length_map, Nat.zero_add] at this
      omega

end SparseMatrix
end MiniMip
