import Verif.Model.DebugRegistry
import Verif.Props.CutRegistry

/-!
# Property C128: the cut registry in the build with assertions
-/

namespace MiniMip
namespace CutRegistry

/-- One call in the build with assertions. -/
noncomputable def debugStep (r : CutRegistry) : Op → Outcome CutRegistry
  | .add c => do let p ← r.addCut c; return p.1
  | .activate i => r.debugActivateCut i
  | .remove i => r.debugRemoveCut (.value i)
  | .update x => r.debugUpdateCutEfficacy x

/-- A history of calls in the build with assertions. -/
noncomputable def debugRun (r : CutRegistry) : List Op → Outcome CutRegistry
  | [] => .ok r
  | op :: ops => do debugRun (← debugStep r op) ops

/-- What the build with assertions accepts: indices of stored cuts, and for an update of the efficacies vectors that are not
marked for cleaning. -/
def Spec.Allowed (s : Spec) : Op → Prop
  | .add _ => True
  | .activate i => 0 ≤ i ∧ i < s.items.length
  | .remove i => 0 ≤ i ∧ i < s.items.length
  | .update x => ∀ p ∈ s.items, p.2.row.dirty = false ∧ x.dirty = false

/-- Every call of the history is allowed when it is made. -/
def Spec.AllAllowed (s : Spec) : List Op → Prop
  | [] => True
  | op :: ops => s.Allowed op ∧ Spec.AllAllowed (s.step op) ops

theorem Spec.Allowed.valid {s : Spec} {op : Op} (h : s.Allowed op) : s.Valid op := by
  cases op with
  | add c => trivial
  | activate i => exact h
  | remove i => exact h
  | update x => trivial

theorem Spec.AllAllowed.valid {s : Spec} {ops : List Op} (h : s.AllAllowed ops) : s.AllValid ops := by
  induction ops generalizing s with
  | nil => trivial
  | cons op ops ih => exact ⟨h.1.valid, ih h.2⟩

theorem checkIndex_eq (r : CutRegistry) (i : Int) :
    r.checkIndex i = if 0 ≤ i ∧ i < r.cuts.length then .ok () else .abort := by
  by_cases h0 : 0 ≤ i <;> by_cases h1 : i < r.cuts.length <;> simp [checkIndex, Outcome.check, h0, h1]

theorem checkRows_iff (x : SparseVector) (l : List CutData) :
    ((∀ c ∈ l, c.row.dirty = false ∧ x.dirty = false) → checkRows x l = .ok ()) ∧
    (¬ (∀ c ∈ l, c.row.dirty = false ∧ x.dirty = false) → checkRows x l = .abort) := by
  induction l with
  | nil => simp [checkRows]
  | cons c r ih =>
    cases h1 : c.row.dirty <;> cases h2 : x.dirty <;> simp only [checkRows, h1, h2, Outcome.check, List.forall_mem_cons]
    · rw [h2] at ih
      simpa using ih
    all_goals simp

theorem Rel.rows {r : CutRegistry} {s : Spec} (h : Rel r s) (P : SparseVector → Prop) :
    (∀ c ∈ r.cuts, P c.row) ↔ ∀ p ∈ s.items, P p.2.row := by
  constructor
  · intro H p hp
    obtain ⟨i, hi⟩ := List.mem_iff_getElem?.mp hp
    have hl : i < r.cuts.length := by rw [h.len]; exact (List.getElem?_eq_some_iff.1 hi).1
    have hc : r.cuts[i]? = some r.cuts[i] := List.getElem?_eq_getElem hl
    have hr : p.2.row = r.cuts[i].row := by rw [← (h.cut i _ p hc hi).2]; rfl
    rw [hr]
    exact H _ (List.mem_of_getElem? hc)
  · intro H c hc
    obtain ⟨i, hi⟩ := List.mem_iff_getElem?.mp hc
    have hl : i < s.items.length := by rw [← h.len]; exact (List.getElem?_eq_some_iff.1 hi).1
    have hp : s.items[i]? = some s.items[i] := List.getElem?_eq_getElem hl
    have hr : s.items[i].2.row = c.row := by rw [← (h.cut i c _ hi hp).2]; rfl
    rw [← hr]
    exact H _ (List.mem_of_getElem? hp)

/-- One call: allowed means no assertion fails, and anything else means that one does. -/
theorem debugStep_iff {r : CutRegistry} {s : Spec} (h : Rel r s) (op : Op) :
    (s.Allowed op → r.debugStep op = r.step op) ∧ (¬ s.Allowed op → r.debugStep op = .abort) := by
  cases op with
  | add c => exact ⟨fun _ => rfl, fun hc => absurd trivial hc⟩
  | activate i =>
    simp only [Spec.Allowed, debugStep, step, debugActivateCut, checkIndex_eq, h.len]
    exact ⟨fun hc => by rw [if_pos hc]; rfl, fun hc => by rw [if_neg hc]; rfl⟩
  | remove i =>
    simp only [Spec.Allowed, debugStep, step, debugRemoveCut, Arg.read, Outcome.bind_ok, checkIndex_eq, h.len]
    exact ⟨fun hc => by rw [if_pos hc]; rfl, fun hc => by rw [if_neg hc]; rfl⟩
  | update x =>
    have h1 := checkRows_iff x r.cuts
    have h2 := h.rows fun v => v.dirty = false ∧ x.dirty = false
    rw [h2] at h1
    simp only [Spec.Allowed, debugStep, step, debugUpdateCutEfficacy]
    exact ⟨fun hc => by rw [h1.1 hc]; rfl, fun hc => by rw [h1.2 hc]; rfl⟩

theorem debugRun_iff {r : CutRegistry} {s : Spec} (h : Rel r s) (ops : List Op) :
    (s.AllAllowed ops → r.debugRun ops = r.run ops) ∧ (¬ s.AllAllowed ops → r.debugRun ops = .abort) := by
  induction ops generalizing r s with
  | nil => exact ⟨fun _ => rfl, fun hc => absurd trivial hc⟩
  | cons op ops ih =>
    by_cases ho : s.Allowed op
    · obtain ⟨r1, h1, h2⟩ := h.step ho.valid
      simp only [Spec.AllAllowed, ho, true_and, debugRun, run, (debugStep_iff h op).1 ho, h1, Outcome.bind_ok]
      exact ih h2
    · exact ⟨fun hc => absurd hc.1 ho, fun _ => by simp [debugRun, (debugStep_iff h op).2 ho]⟩

theorem Rel.getCut {r : CutRegistry} {s : Spec} (h : Rel r s) (i : Int) :
    if hi : 0 ≤ i ∧ i < s.items.length then
      ∃ c, r.debugGetCut i = .ok c ∧ content c = (s.items[i.toNat]'(by omega)).2
    else r.debugGetCut i = .abort := by
  split
  · rename_i hi
    obtain ⟨n, rfl⟩ := Int.eq_ofNat_of_zero_le hi.1
    have hn : n < r.cuts.length := by rw [h.len]; omega
    have hc : r.cuts[n]? = some r.cuts[n] := List.getElem?_eq_getElem hn
    refine ⟨r.cuts[n], ?_, (h.cut n _ _ hc (List.getElem?_eq_getElem (by omega))).2⟩
    simp [debugGetCut, checkIndex_eq, hn, CutRegistry.getCut]
  · rename_i hi
    simp only [debugGetCut, checkIndex_eq, h.len, if_neg hi, Outcome.bind_abort]

/-- **C128.**  A history of calls on a new registry raises no assertion exactly if every index is that of a stored cut and
efficacies are updated with vectors that are not marked for cleaning; then the registry is that of the build without
assertions, and `GetCut` returns the stored cut at every index of one and raises an assertion at all others. -/
theorem C128_history (ops : List Op) :
    (Spec.AllAllowed {} ops → ∃ r, debugRun {} ops = .ok r ∧ run {} ops = .ok r ∧
      ∀ i : Int, if hi : 0 ≤ i ∧ i < (Spec.run {} ops).items.length then
          ∃ c, r.debugGetCut i = .ok c ∧ content c = ((Spec.run {} ops).items[i.toNat]'(by omega)).2
        else r.debugGetCut i = .abort) ∧
    (¬ Spec.AllAllowed {} ops → debugRun {} ops = .abort) := by
  have h := debugRun_iff Rel.init ops
  refine ⟨fun ha => ?_, h.2⟩
  obtain ⟨r, h1, h2⟩ := Rel.init.run ops ha.valid
  exact ⟨r, (h.1 ha).trans h1, h1, h2.getCut⟩

/-- The contents of the cuts with these ordinals. -/
def Spec.contents (s : Spec) (ks : List Nat) : List CutData :=
  ks.filterMap fun k => (s.items.find? fun p => p.1 = k).map (·.2)

theorem readAll_eq {r : CutRegistry} {s : Spec} (h : Rel r s) (A : List Int) (L : List Nat)
    (hA : A.map s.denotes = L.map some) :
    ∃ cs, r.debugReadAll A = .ok cs ∧ cs.map content = s.contents L ∧ cs.length = L.length := by
  induction A generalizing L with
  | nil =>
    cases L with
    | nil => exact ⟨[], rfl, rfl, rfl⟩
    | cons k L => simp at hA
  | cons i A ih =>
    cases L with
    | nil => simp at hA
    | cons k L =>
      simp only [List.map_cons, List.cons.injEq] at hA
      obtain ⟨cs, h1, h2, h3⟩ := ih L hA.2
      obtain ⟨h0, p, hp, hk⟩ := denotes_lt hA.1
      have hl : i.toNat < s.items.length := (List.getElem?_eq_some_iff.1 hp).1
      have hg := h.getCut i
      rw [dif_pos ⟨h0, by omega⟩] at hg
      obtain ⟨c, hc1, hc2⟩ := hg
      have hp' : s.items[i.toNat] = p := (List.getElem?_eq_some_iff.1 hp).2
      have hfind : (s.items.find? fun q => q.1 = k) = some p := by
        rw [List.find?_eq_some_iff_getElem]
        refine ⟨by simpa using hk, i.toNat, hl, hp', fun j hj => ?_⟩
        have := (List.pairwise_iff_getElem.1 h.sorted) j i.toNat (by omega) hl hj
        rw [hp', hk] at this
        simp only [decide_eq_true_eq, Bool.not_eq_true', decide_eq_false_iff_not]
        omega
      refine ⟨c :: cs, by simp [debugReadAll, hc1, h1, Outcome.pure_eq], ?_, by simp [h3]⟩
      simp only [List.map_cons, h2, hc2, hp', Spec.contents, List.filterMap_cons, hfind, Option.map_some]

/-- **C128**, reading the active cuts, partial: if no cut is activated while it is active, then after every history of allowed
calls reading all active cuts raises no assertion and returns the activated cuts that have not been removed, in the order of
their activation. -/
theorem C128_active_cuts_partial (ops : List Op) (ha : Spec.AllAllowed {} ops) (ho : Spec.Once {} ops) :
    ∃ r cs, debugRun {} ops = .ok r ∧ r.debugReadAll r.activeIndices = .ok cs ∧
      cs.map content = (Spec.run {} ops).contents (Spec.run {} ops).activated ∧
      cs.length = (Spec.run {} ops).activated.length := by
  obtain ⟨r, h1, h2⟩ := Rel.init.run ops ha.valid
  obtain ⟨r', h3, h4, -⟩ := C20_active_set_partial ops ha.valid ho
  obtain rfl := Outcome.ok.inj (h1.symm.trans h3)
  obtain ⟨cs, h5, h6, h7⟩ := readAll_eq h2 _ _ h4
  exact ⟨r, cs, ((debugRun_iff Rel.init ops).1 ha).trans h1, h5, h6, h7⟩

/-- Activating a cut twice and removing it leaves an active index without a cut: every call is accepted, but reading the active
cuts raises an assertion. -/
theorem C128_double_activation_violated (c : CutData) :
    ∃ r, Spec.AllAllowed {} [.add c, .activate 0, .activate 0, .remove 0] ∧
      debugRun {} [.add c, .activate 0, .activate 0, .remove 0] = .ok r ∧
      r.debugReadAll r.activeIndices = .abort := by
  refine ⟨⟨[], [0]⟩, by simp [Spec.AllAllowed, Spec.Allowed, Spec.step], ?_, ?_⟩
  · simp [debugRun, debugStep, addCut, CutData.setIndex, CutData.getIndex, debugActivateCut, activateCut, checkIndex,
      debugRemoveCut, removeCut, Arg.read, decrementFrom, Outcome.check]
  · simp [debugReadAll, debugGetCut, checkIndex, Outcome.check]

/-- Removing the cut with the last active index through a reference to that index is undefined behaviour in the build with
assertions as well, although the index is that of a stored cut. -/
theorem C128_aliased_violated (r : CutRegistry) (i : Int) (hl : r.activeIndices.getLast? = some i)
    (hi : 0 ≤ i ∧ i < r.cuts.length) :
    r.debugRemoveCut (.activeSlot (r.activeIndices.length - 1)) = .ub := by
  have hne : r.activeIndices ≠ [] := by
    rintro h
    simp [h] at hl
  have hread : Arg.read r.activeIndices (.activeSlot (r.activeIndices.length - 1)) = .ok i := by
    rw [List.getLast?_eq_getElem?] at hl
    simp [Arg.read, hl]
  simp only [debugRemoveCut, hread, Outcome.bind_ok, checkIndex_eq, if_pos hi]
  exact C20_aliased_last_undefined r hne

/-- The history of `C19` and `C20` is allowed, and meets the hypotheses of `C128_active_cuts_partial`. -/
example : Spec.AllAllowed {} exOps ∧ Spec.Once {} exOps ∧ (Spec.run {} exOps).activated = [1, 2] := by
  simp [exOps, Spec.AllAllowed, Spec.Allowed, Spec.Once, Spec.step, Spec.run, content, exCut, createCut]

/-- A history that is not allowed. -/
example : ¬ Spec.AllAllowed {} [.add (exCut 1), .remove 0, .activate 0] := by
  simp [Spec.AllAllowed, Spec.Allowed, Spec.step]

/-- A registry that meets the hypotheses of `C128_aliased_violated`. -/
example : ∃ (r : CutRegistry) (i : Int), r.activeIndices.getLast? = some i ∧ 0 ≤ i ∧ i < r.cuts.length :=
  ⟨⟨[exCut 1], [0]⟩, 0, rfl, le_refl _, by simp⟩

end CutRegistry
end MiniMip
