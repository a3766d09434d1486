import Verif.Model.HybridSelector
import Verif.Props.Efficacy
import Mathlib.Data.List.Perm.Basic

/-!
# Properties C21, C22, C23, C62: cut selection
-/

namespace MiniMip.HybridSelector
open SparseVector

/-- The most parallel a later cut `b` may be to an earlier cut `a`: the cosine of the angle
between the two rows (its absolute value unless the signed version is chosen) is at most
one minus the minimum orthogonality.  `S` is any finite set with all their non-zeros. -/
def NotTooParallel (p : HybridParams) (a b : CutData) : Prop :=
  ∀ S : Finset Int, Covers S a.row → Covers S b.row →
    let dot := ∑ i ∈ S, (a.row.value i : ℝ) * (b.row.value i : ℝ)
    let norms := Real.sqrt (∑ i ∈ S, (a.row.value i : ℝ) ^ 2) *
      Real.sqrt (∑ i ∈ S, (b.row.value i : ℝ) ^ 2)
    (if p.signedOrthogonality then dot else |dot|) ≤ (1 - p.minimumOrthogonality) * norms

/-- Rows as the generators deliver them: clean and with at least one entry. -/
def GoodRow (c : CutData) : Prop := Clean c.row.entries ∧ c.row.entries ≠ []

theorem squaredNorm_eq {v : SparseVector} (hv : Clean v.entries) {S : Finset Int}
    (hS : Covers S v) : (squaredNorm v : ℝ) = ∑ i ∈ S, (v.value i : ℝ) ^ 2 := by
  have h1 : squaredNorm v = v.dotProduct v := by
    unfold squaredNorm
    rw [C05_dot_product v v hv hv (S ∪ (v.entries.map (·.index)).toFinset)
      (fun i h _ => Finset.mem_union_left _ (hS i h))]
    show _ = ∑ i ∈ S ∪ (v.entries.map (·.index)).toFinset, valueAt v.entries i * valueAt v.entries i
    rw [← sum_map_eq_finset hv.1 (valueAt v.entries) (S ∪ (v.entries.map (·.index)).toFinset)]
    · apply congrArg
      apply List.map_congr_left
      intro e he
      rw [value_of_mem hv he]
    · intro e he
      simp only [Finset.mem_union, List.mem_toFinset, List.mem_map]
      exact Or.inr ⟨e, he, rfl⟩
  rw [h1, dotProduct_real v v hv hv S hS]
  exact Finset.sum_congr rfl (fun i _ => (sq _).symm)

theorem squaredNorm_pos {c : CutData} (h : GoodRow c) : 0 < (squaredNorm c.row : ℝ) := by
  obtain ⟨S, hS⟩ := exists_support c.row c.row c.row
  have hS' : Covers S c.row := fun i h => hS i (Or.inl h)
  rw [squaredNorm_eq h.1 hS']
  have := norm_pos h.1 h.2
  rw [dotProduct_real _ _ h.1 h.1 S hS'] at this
  calc 0 < _ := this
    _ = _ := Finset.sum_congr rfl (fun i _ => (sq _).symm)

/-- The removal test of the code against the specification. -/
theorem orthogonal_iff {p : HybridParams} {a b : CutData} (ha : GoodRow a) (hb : GoodRow b) :
    twoCutsAreOrthogonal a b p.minimumOrthogonality p.signedOrthogonality = true ↔
      b.forced = false ∧ ¬ NotTooParallel p a b := by
  have hna := squaredNorm_pos ha
  have hnb := squaredNorm_pos hb
  have hd : 0 < Real.sqrt (squaredNorm a.row : ℝ) * Real.sqrt (squaredNorm b.row : ℝ) :=
    mul_pos (Real.sqrt_pos.2 hna) (Real.sqrt_pos.2 hnb)
  have key : NotTooParallel p a b ↔
      (if p.signedOrthogonality then ((a.row.dotProduct b.row : ℚ) : ℝ)
        else |((a.row.dotProduct b.row : ℚ) : ℝ)|) ≤ (1 - p.minimumOrthogonality) *
        (Real.sqrt (squaredNorm a.row : ℝ) * Real.sqrt (squaredNorm b.row : ℝ)) := by
    constructor
    · intro h
      obtain ⟨S, hS⟩ := exists_support a.row b.row b.row
      have hSa : Covers S a.row := fun i h => hS i (Or.inl h)
      have hSb : Covers S b.row := fun i h => hS i (Or.inr (Or.inl h))
      have := h S hSa hSb
      rw [squaredNorm_eq ha.1 hSa, squaredNorm_eq hb.1 hSb, dotProduct_real _ _ ha.1 hb.1 S hSa]
      exact this
    · intro h S hSa hSb
      rw [squaredNorm_eq ha.1 hSa, squaredNorm_eq hb.1 hSb, dotProduct_real _ _ ha.1 hb.1 S hSa] at h
      exact h
  rw [key]
  unfold twoCutsAreOrthogonal cosAngle
  cases hf : b.forced
  · simp only [Bool.false_eq_true, if_false, hd.ne', true_and, not_le]
    split
    · rw [decide_eq_true_iff, lt_div_iff₀ hd]
    · rw [decide_eq_true_iff, abs_div, abs_of_pos hd, lt_div_iff₀ hd]
  · simp

theorem not_lt_iff {a b : RDbl} (ha : a ≠ .nan) (hb : b ≠ .nan) : ¬ a.lt b ↔ b.le a := by
  cases a <;> cases b <;> simp_all [RDbl.lt, RDbl.le]

theorem not_le_of_lt {a b c : RDbl} (h : a.lt b) (hn : ¬ a.lt c) : ¬ b.le c := by
  cases a <;> cases b <;> cases c <;> simp_all [RDbl.lt, RDbl.le]
  linarith

theorem lt_of_not_le {a b : RDbl} (ha : a ≠ .nan) (hb : b ≠ .nan) (h : ¬ b.le a) : a.lt b := by
  by_contra hn
  exact h ((not_lt_iff ha hb).1 hn)

theorem StrictWeak.sub {l m : List CutData} (h : StrictWeak l) (hm : ∀ c ∈ m, c ∈ l) : StrictWeak m := by
  rcases h with h | h
  · exact Or.inl fun c hc => h c (hm c hc)
  · exact Or.inr fun a ha b hb => h a (hm a ha) b (hm b hb)

theorem StrictWeak.perm {l m : List CutData} (h : StrictWeak l) (hp : m.Perm l) : StrictWeak m :=
  h.sub fun _ hc => hp.mem_iff.1 hc

theorem selectLoop_weak {s : Sorter} {p : HybridParams} {cuts sel out : List CutData}
    (h : selectLoop s p cuts sel = .ok out) : StrictWeak cuts := by
  rw [selectLoop] at h
  split at h
  · assumption
  · cases h

/-- Everything about the selection loop. -/
theorem selectLoop_spec (s : Sorter) (p : HybridParams) (cuts sel : List CutData) (hw : StrictWeak cuts)
    (hg : ∀ c ∈ cuts, GoodRow c) :
    ∃ out rest, selectLoop s p cuts sel = .ok (sel ++ out) ∧ (out ++ rest).Perm cuts ∧
      out.Pairwise (fun a b => ¬ (scoreOf a).lt (scoreOf b)) ∧
      (∀ c ∈ out, ¬ (scoreOf c).lt (.fin p.scoreThreshold)) ∧
      out.Pairwise (fun a b => b.forced = false → NotTooParallel p a b) ∧
      (∀ c ∈ rest, (c.forced = false ∧ ∃ a ∈ out, ¬ (scoreOf a).lt (scoreOf c) ∧ ¬ NotTooParallel p a c) ∨
        ((∀ a ∈ out, ¬ (scoreOf a).lt (scoreOf c)) ∧
          ((∃ d ∈ cuts, (scoreOf d).lt (.fin p.scoreThreshold) ∧ ¬ (scoreOf d).lt (scoreOf c)) ∨
            (out ≠ [] ∧ ((sel ++ out).length : Int) = p.maxNumCuts)))) ∧
      ((sel.length : Int) < p.maxNumCuts → ((sel ++ out).length : Int) ≤ p.maxNumCuts) := by
  induction hn : cuts.length using Nat.strong_induction_on generalizing cuts sel with
  | _ n ih =>
  subst hn
  have hperm := s.perm cuts
  have hs := s.sorted cuts hw
  rw [selectLoop, if_pos hw]
  split
  · rename_i h
    rw [h] at hperm
    have hnil : cuts = [] := List.Perm.eq_nil hperm.symm
    subst hnil
    exact ⟨[], [], by simp, by simp, by simp, by simp, by simp, by simp, by simp; omega⟩
  · rename_i c rest h
    rw [h] at hperm
    rw [h, List.pairwise_cons] at hs
    have hc : GoodRow c := hg c (hperm.mem_iff.1 (by simp))
    have hr : ∀ d ∈ rest, GoodRow d := fun d hd => hg d (hperm.mem_iff.1 (by simp [hd]))
    split
    · rename_i hthr
      refine ⟨[], cuts, by simp, by simp, by simp, by simp, by simp, ?_, by simp; omega⟩
      intro d hd
      right
      refine ⟨by simp, Or.inl ⟨c, hperm.mem_iff.1 (by simp), hthr, ?_⟩⟩
      rcases List.mem_cons.1 (hperm.mem_iff.2 hd) with rfl | hd'
      · cases hsc : scoreOf d <;> simp [RDbl.lt]
      · exact hs.1 d hd'
    · rename_i hthr
      split
      · rename_i hmax
        refine ⟨[c], rest, rfl, by simpa using hperm, by simp, ?_, by simp, ?_, fun _ => le_of_eq hmax⟩
        · intro d hd; simp only [List.mem_singleton] at hd; subst hd; exact hthr
        · intro d hd
          right
          exact ⟨fun a ha => by simp only [List.mem_singleton] at ha; subst ha; exact hs.1 d hd,
            Or.inr ⟨by simp, hmax⟩⟩
      · rename_i hmax
        have hsub : ∀ d ∈ keep p c rest, d ∈ cuts := fun d hd =>
          hperm.mem_iff.1 (by simp [(List.mem_filter.1 hd).1])
        have hlt : (keep p c rest).length < cuts.length := by
          have h1 : (keep p c rest).length ≤ rest.length := List.length_filter_le ..
          have h2 := hperm.length_eq
          simp only [List.length_cons] at h2
          omega
        obtain ⟨out, left, h1, h2, h3, h4, h5, h6, h7⟩ := ih _ hlt (keep p c rest) (sel ++ [c]) (hw.sub hsub)
          (fun d hd => hr d (List.mem_of_mem_filter hd)) rfl
        have hmem : ∀ d ∈ out, d ∈ rest ∧
            twoCutsAreOrthogonal c d p.minimumOrthogonality p.signedOrthogonality = false := by
          intro d hd
          have := h2.mem_iff.1 (List.mem_append_left left hd)
          rw [keep, List.mem_filter] at this
          exact ⟨this.1, by simpa using this.2⟩
        refine ⟨c :: out, left ++ rest.filter (fun d =>
          twoCutsAreOrthogonal c d p.minimumOrthogonality p.signedOrthogonality), ?_, ?_, ?_, ?_, ?_, ?_, ?_⟩
        · rw [h1]; simp
        · have hp2 : (rest.filter (fun d =>
              !twoCutsAreOrthogonal c d p.minimumOrthogonality p.signedOrthogonality) ++
              rest.filter (fun d =>
              twoCutsAreOrthogonal c d p.minimumOrthogonality p.signedOrthogonality)).Perm rest := by
            have := List.filter_append_perm (fun d =>
              !twoCutsAreOrthogonal c d p.minimumOrthogonality p.signedOrthogonality) rest
            simpa using this
          refine List.Perm.trans ?_ hperm
          rw [List.cons_append, ← List.append_assoc]
          exact ((h2.append_right _).trans hp2).cons c
        · rw [List.pairwise_cons]
          exact ⟨fun d hd => hs.1 d (hmem d hd).1, h3⟩
        · intro d hd
          rcases List.mem_cons.1 hd with rfl | hd
          · exact hthr
          · exact h4 d hd
        · rw [List.pairwise_cons]
          refine ⟨fun d hd hf => ?_, h5⟩
          obtain ⟨hd1, hd2⟩ := hmem d hd
          by_contra hn
          rw [(orthogonal_iff hc (hr d hd1)).2 ⟨hf, hn⟩] at hd2
          exact Bool.noConfusion hd2
        · intro d hd
          rcases List.mem_append.1 hd with hd | hd
          · have hdr : d ∈ rest := by
              have := h2.mem_iff.1 (List.mem_append_right out hd)
              exact List.mem_of_mem_filter this
            rcases h6 d hd with ⟨hf, a, ha, hn⟩ | ⟨hle, hor⟩
            · exact Or.inl ⟨hf, a, by simp [ha], hn⟩
            · refine Or.inr ⟨fun a ha => ?_, ?_⟩
              · rcases List.mem_cons.1 ha with rfl | ha
                · exact hs.1 d hdr
                · exact hle a ha
              · rcases hor with ⟨q, hq, hq'⟩ | h
                · exact Or.inl ⟨q, hsub q hq, hq'⟩
                · exact Or.inr ⟨by simp, by simpa [add_assoc, add_comm] using h.2⟩
          · rw [List.mem_filter] at hd
            obtain ⟨hf, hn⟩ := (orthogonal_iff hc (hr d hd.1)).1 hd.2
            exact Or.inl ⟨hf, c, by simp, hs.1 d hd.1, hn⟩
        · intro hlt
          have := h7 (by
            simp only [List.length_append, List.length_singleton] at hmax ⊢
            push_cast at hmax ⊢; omega)
          simpa using this

theorem selectLoop_ok (s : Sorter) (p : HybridParams) (cuts sel : List CutData) (hw : StrictWeak cuts) :
    ∃ out, selectLoop s p cuts sel = .ok out := by
  induction hn : cuts.length using Nat.strong_induction_on generalizing cuts sel with
  | _ n ih =>
  subst hn
  have hperm := s.perm cuts
  rw [selectLoop, if_pos hw]
  split
  · exact ⟨_, rfl⟩
  · rename_i c rest h
    rw [h] at hperm
    split
    · exact ⟨_, rfl⟩
    · split
      · exact ⟨_, rfl⟩
      · refine ih _ ?_ _ _ (hw.sub fun d hd => hperm.mem_iff.1 (by simp [(List.mem_filter.1 hd).1])) rfl
        have h1 : (keep p c rest).length ≤ rest.length := List.length_filter_le ..
        have h2 := hperm.length_eq
        simp only [List.length_cons] at h2
        omega

/-- The same cuts as before, each with its score filled in. -/
inductive Scored (p : HybridParams) : List CutData → List CutData → Prop
  | nil : Scored p [] []
  | cons {c : CutData} {x : RDbl} {r r' : List CutData} : computeCutScore p c = .ok x →
      Scored p r r' → Scored p (c :: r) ({ c with score := some x } :: r')

theorem scoreAll_spec {p : HybridParams} {l m : List CutData} (h : scoreAll p l = .ok m) :
    Scored p l m := by
  induction l generalizing m with
  | nil => simp only [scoreAll, Outcome.ok.injEq] at h; subst h; exact .nil
  | cons c r ih =>
    simp only [scoreAll, Outcome.bind_eq_ok, Outcome.pure_eq, Outcome.ok.injEq] at h
    obtain ⟨x, hx, r', hr', rfl⟩ := h
    exact .cons hx (ih hr')

theorem Scored.good {p : HybridParams} {l m : List CutData} (h : Scored p l m)
    (hg : ∀ c ∈ l, GoodRow c) : ∀ c ∈ m, GoodRow c := by
  induction h with
  | nil => simp
  | cons hx hr ih =>
    intro d hd
    rcases List.mem_cons.1 hd with rfl | hd
    · rename_i c x r r'; exact hg c (List.mem_cons_self ..)
    · exact ih (fun e he => hg e (by simp [he])) d hd

/-- Every candidate occurs with its score. -/
theorem Scored.mem {p : HybridParams} {l m : List CutData} (h : Scored p l m) {c : CutData}
    (hc : c ∈ l) : ∃ x, computeCutScore p c = .ok x ∧ { c with score := some x } ∈ m := by
  induction h with
  | nil => simp at hc
  | cons hx hr ih =>
    rcases List.mem_cons.1 hc with rfl | hc
    · exact ⟨_, hx, by simp⟩
    · obtain ⟨x, h1, h2⟩ := ih hc
      exact ⟨x, h1, by simp [h2]⟩

theorem Scored.mem_inv {p : HybridParams} {l m : List CutData} (h : Scored p l m) {c : CutData} (hc : c ∈ m) :
    ∃ d ∈ l, ∃ x, computeCutScore p d = .ok x ∧ c = { d with score := some x } := by
  induction h with
  | nil => simp at hc
  | cons hx hr ih =>
    rcases List.mem_cons.1 hc with rfl | hc
    · exact ⟨_, by simp, _, hx, rfl⟩
    · obtain ⟨d, hd, x, h1, h2⟩ := ih hc
      exact ⟨d, by simp [hd], x, h1, h2⟩

/-- Efficacy and parallelism are numbers, as they are for a cut that `CreateCut` makes from a row and
an objective that are not zero. -/
def Measured (c : CutData) : Prop :=
  (∃ x, c.efficacy = .fin x) ∧ ∃ x, c.objectiveParallelism = .fin x

theorem Measured.score {p : HybridParams} {c : CutData} (h : Measured c) {x : RDbl}
    (hx : computeCutScore p c = .ok x) : ∃ y, x = .fin y := by
  obtain ⟨⟨e, he⟩, q, hq⟩ := h
  simp only [computeCutScore, he, hq, RDbl.scale] at hx
  split at hx
  · split at hx
    · cases hx
    · have hx := Outcome.ok.inj hx
      subst hx
      split <;> split <;> exact ⟨_, rfl⟩
  · have hx := Outcome.ok.inj hx
    subst hx
    split <;> split <;> exact ⟨_, rfl⟩

theorem Scored.measured {p : HybridParams} {l m : List CutData} (h : Scored p l m)
    (hm : ∀ c ∈ l, Measured c) {c : CutData} (hc : c ∈ m) : scoreOf c ≠ .nan := by
  obtain ⟨d, hd, x, hx, rfl⟩ := h.mem_inv hc
  obtain ⟨y, rfl⟩ := (hm d hd).score hx
  simp [scoreOf]

/-! ## C21 -/

/-- **C21**, proved part: cuts with efficacy and parallelism.  Whatever `std::sort` does with equal
scores: the result, together with the cuts left out, is a permutation of the scored candidates; the
scores do not increase; each is at least the threshold; no later unforced cut is too parallel to an
earlier one.  Moreover nothing is left out without a reason: a cut left out is unforced and too parallel
to a selected cut with at least its score, or it scores no better than any selected cut and
is below the threshold or the limit has been reached.  Missing (and false, see
`C21_zero_objective_violated`): cuts of a problem with a zero objective. -/
theorem C21_selection_partial (s : Sorter) (p : HybridParams) (cuts out : List CutData)
    (hg : ∀ c ∈ cuts, GoodRow c) (hm : ∀ c ∈ cuts, Measured c) (h : selectCuttingPlanes s p cuts = .ok out) :
    ∃ scored rest, Scored p cuts scored ∧ (out ++ rest).Perm scored ∧
      out.Pairwise (fun a b => (scoreOf b).le (scoreOf a)) ∧
      (∀ c ∈ out, (RDbl.fin p.scoreThreshold).le (scoreOf c)) ∧
      out.Pairwise (fun a b => b.forced = false → NotTooParallel p a b) ∧
      ∀ c ∈ rest,
        (c.forced = false ∧ ∃ a ∈ out, (scoreOf c).le (scoreOf a) ∧ ¬ NotTooParallel p a c) ∨
        ((∀ a ∈ out, (scoreOf c).le (scoreOf a)) ∧
          ((scoreOf c).lt (.fin p.scoreThreshold) ∨ (out ≠ [] ∧ (out.length : Int) = p.maxNumCuts))) := by
  simp only [selectCuttingPlanes, Outcome.bind_eq_ok] at h
  obtain ⟨scored, h1, h2⟩ := h
  have hs := scoreAll_spec h1
  have hn : ∀ c ∈ scored, scoreOf c ≠ .nan := fun c hc => hs.measured hm hc
  obtain ⟨o, rest, g1, g2, g3, g4, g5, g6, -⟩ := selectLoop_spec s p scored [] (Or.inl hn) (hs.good hg)
  rw [g1, List.nil_append] at h2
  have h2 := Outcome.ok.inj h2
  subst h2
  simp only [List.nil_append] at g6
  have ho : ∀ c ∈ o, scoreOf c ≠ .nan := fun c hc => hn c (g2.mem_iff.1 (List.mem_append_left _ hc))
  have hr : ∀ c ∈ rest, scoreOf c ≠ .nan := fun c hc => hn c (g2.mem_iff.1 (List.mem_append_right _ hc))
  refine ⟨scored, rest, hs, g2, ?_, fun c hc => (not_lt_iff (ho c hc) (by simp)).1 (g4 c hc), g5, fun c hc => ?_⟩
  · exact g3.imp_of_mem fun ha hb h => (not_lt_iff (ho _ ha) (ho _ hb)).1 h
  · rcases g6 c hc with ⟨h1, a, ha, h3, h4⟩ | ⟨h1, h3⟩
    · exact Or.inl ⟨h1, a, ha, (not_lt_iff (ho a ha) (hr c hc)).1 h3, h4⟩
    · refine Or.inr ⟨fun a ha => (not_lt_iff (ho a ha) (hr c hc)).1 (h1 a ha), ?_⟩
      rcases h3 with ⟨d, hd, h3, h4⟩ | h3
      · exact Or.inl (lt_of_not_le (hr c hc) (by simp) (not_le_of_lt h3 h4))
      · exact Or.inr h3

/-- Cuts made for the same objective: all have a parallelism, or none has one. -/
def Comparable (cuts : List CutData) : Prop :=
  (∀ c ∈ cuts, ∃ x, c.efficacy = .fin x) ∧
    ((∀ c ∈ cuts, ∃ x, c.objectiveParallelism = .fin x) ∨ ∀ c ∈ cuts, c.objectiveParallelism = .nan)

theorem add_fin_nan (a b : ℝ) : ((RDbl.fin a).add (.fin b)).add .nan = .nan := rfl

/-- Without an objective the score of every cut is NaN, or the objective is not looked at. -/
theorem score_nan {p : HybridParams} {c : CutData} (he : ∃ x, c.efficacy = .fin x)
    (hq : c.objectiveParallelism = .nan) {x : RDbl} (hx : computeCutScore p c = .ok x) :
    if 0 < p.objectiveParallelismWeight then x = .nan else ∃ y, x = .fin y := by
  obtain ⟨e, he⟩ := he
  simp only [computeCutScore, he, hq, RDbl.scale] at hx
  split at hx
  · split at hx
    · cases hx
    · have hx := Outcome.ok.inj hx
      subst hx
      split <;> split <;> first | rfl | exact ⟨_, rfl⟩
  · have hx := Outcome.ok.inj hx
    subst hx
    split <;> split <;> first | rfl | exact ⟨_, rfl⟩

theorem Scored.weak {p : HybridParams} {l m : List CutData} (h : Scored p l m) (hc : Comparable l) :
    StrictWeak m := by
  obtain ⟨he, hq | hq⟩ := hc
  · exact Or.inl fun c hc => h.measured (fun d hd => ⟨he d hd, hq d hd⟩) hc
  · by_cases hw : 0 < p.objectiveParallelismWeight
    · right
      intro a ha b hb
      obtain ⟨d, hd, x, hx, rfl⟩ := h.mem_inv ha
      have := score_nan (he d hd) (hq d hd) hx
      rw [if_pos hw] at this
      subst this
      simp [scoreOf, RDbl.lt]
    · left
      intro a ha
      obtain ⟨d, hd, x, hx, rfl⟩ := h.mem_inv ha
      have := score_nan (he d hd) (hq d hd) hx
      rw [if_neg hw] at this
      obtain ⟨y, rfl⟩ := this
      simp [scoreOf]

theorem scoreAll_ok (p : HybridParams) (cuts : List CutData) (hn : ∀ c ∈ cuts, c.numNonZeros ≠ 0) :
    ∃ m, scoreAll p cuts = .ok m := by
  induction cuts with
  | nil => exact ⟨[], rfl⟩
  | cons c r ih =>
    obtain ⟨m, hm⟩ := ih (fun d hd => hn d (by simp [hd]))
    have hc := hn c (by simp)
    have : ∃ x, computeCutScore p c = .ok x := by
      unfold computeCutScore
      simp only [hc, if_false]
      split
      · exact ⟨_, rfl⟩
      · exact ⟨_, rfl⟩
    obtain ⟨x, hx⟩ := this
    exact ⟨c.setScore x :: m, by simp [scoreAll, hx, hm]⟩

/-- The selector succeeds on rows with at least one non-zero recorded. -/
theorem C21_selection_succeeds (s : Sorter) (p : HybridParams) (cuts : List CutData)
    (hn : ∀ c ∈ cuts, c.numNonZeros ≠ 0) (hc : Comparable cuts) :
    ∃ out, selectCuttingPlanes s p cuts = .ok out := by
  obtain ⟨m, hm⟩ := scoreAll_ok p cuts hn
  obtain ⟨out, ho⟩ := selectLoop_ok s p m [] ((scoreAll_spec hm).weak hc)
  exact ⟨out, by simp [selectCuttingPlanes, hm, ho]⟩

/-- What happens instead for a zero objective, if its weight is positive as it is by default: no cut is
left out because of its efficacy or its integer support, and neither decides about the order. -/
theorem C21_zero_objective (s : Sorter) (p : HybridParams) (hw : 0 < p.objectiveParallelismWeight)
    (cuts out : List CutData) (hg : ∀ c ∈ cuts, GoodRow c)
    (hc : ∀ c ∈ cuts, (∃ x, c.efficacy = .fin x) ∧ c.objectiveParallelism = .nan)
    (h : selectCuttingPlanes s p cuts = .ok out) :
    ∃ rest, (out ++ rest).Perm (cuts.map fun c => { c with score := some .nan }) ∧
      out.Pairwise (fun a b => b.forced = false → NotTooParallel p a b) ∧
      ∀ c ∈ rest, (c.forced = false ∧ ∃ a ∈ out, ¬ NotTooParallel p a c) ∨
        (out ≠ [] ∧ (out.length : Int) = p.maxNumCuts) := by
  simp only [selectCuttingPlanes, Outcome.bind_eq_ok] at h
  obtain ⟨scored, h1, h2⟩ := h
  have hs := scoreAll_spec h1
  have hnan : ∀ c ∈ scored, scoreOf c = .nan := by
    intro a ha
    obtain ⟨d, hd, x, hx, rfl⟩ := hs.mem_inv ha
    have := score_nan (hc d hd).1 (hc d hd).2 hx
    rw [if_pos hw] at this
    subst this
    rfl
  have heq : scored = cuts.map fun c => { c with score := some .nan } := by
    clear h1 h2 hnan hg
    induction hs with
    | nil => rfl
    | cons hx hr ih =>
      rename_i c x r r'
      rw [ih fun d hd => hc d (by simp [hd])]
      have := score_nan (hc c (by simp)).1 (hc c (by simp)).2 hx
      rw [if_pos hw] at this
      subst this
      rfl
  obtain ⟨o, rest, g1, g2, -, -, g5, g6, -⟩ := selectLoop_spec s p scored [] (selectLoop_weak h2) (hs.good hg)
  rw [g1, List.nil_append] at h2
  have h2 := Outcome.ok.inj h2
  subst h2
  simp only [List.nil_append] at g6
  refine ⟨rest, by rw [← heq]; exact g2, g5, fun c hc => ?_⟩
  rcases g6 c hc with ⟨h1, a, ha, -, h4⟩ | ⟨-, ⟨d, hd, h3, -⟩ | h3⟩
  · exact Or.inl ⟨h1, a, ha, h4⟩
  · rw [hnan d hd] at h3
    exact h3.elim
  · exact Or.inr h3

open Classical in
/-- A concrete sorter (insertion sort), showing that the specification of `std::sort` can be
met. -/
noncomputable def insertDesc (c : CutData) : List CutData → List CutData
  | [] => [c]
  | d :: r => if (scoreOf d).lt (scoreOf c) then c :: d :: r else d :: insertDesc c r

noncomputable def sortDesc : List CutData → List CutData
  | [] => []
  | c :: r => insertDesc c (sortDesc r)

theorem insertDesc_perm (c : CutData) (l : List CutData) : (insertDesc c l).Perm (c :: l) := by
  induction l with
  | nil => simp [insertDesc]
  | cons d r ih =>
    rw [insertDesc]
    split
    · rfl
    · exact (ih.cons d).trans (List.Perm.swap ..)

theorem lt_trans' {a b c : RDbl} (h : a.lt b) (h' : b.lt c) : a.lt c := by
  cases a <;> cases b <;> cases c <;> simp_all [RDbl.lt]
  linarith

theorem lt_irrefl' (a : RDbl) : ¬ a.lt a := by cases a <;> simp [RDbl.lt]

noncomputable def exSorter : Sorter where
  sort := sortDesc
  perm l := by
    induction l with
    | nil => rfl
    | cons c r ih => exact (insertDesc_perm c _).trans (ih.cons c)
  sorted l h := by
    clear h
    induction l with
    | nil => simp [sortDesc]
    | cons c r ih =>
      rw [sortDesc]
      generalize sortDesc r = m at ih
      induction m with
      | nil => simp [insertDesc]
      | cons d m ihm =>
        rw [List.pairwise_cons] at ih
        rw [insertDesc]
        split
        · rename_i hlt
          rw [List.pairwise_cons]
          refine ⟨fun e he => ?_, List.pairwise_cons.2 ih⟩
          rcases List.mem_cons.1 he with rfl | he
          · exact fun h => lt_irrefl' _ (lt_trans' hlt h)
          · exact fun h => ih.1 e he (lt_trans' hlt h)
        · rename_i hlt
          rw [List.pairwise_cons]
          refine ⟨fun e he => ?_, ihm ih.2⟩
          rcases List.mem_cons.1 ((insertDesc_perm c m).mem_iff.1 he) with rfl | he
          · exact hlt
          · exact ih.1 e he

/-- A cut on the single variable `j`, with the given efficacy. -/
def exCut (j : Int) (efficacy : ℝ) (forced : Bool) : CutData :=
  { row := ⟨[⟨j, 1⟩], false⟩
    rhs := 0
    numNonZeros := 1
    numIntegers := 1
    objectiveParallelism := .fin 0
    name := "cut"
    forced := forced
    efficacy := .fin efficacy }

theorem exCut_good {j : Int} (hj : 0 ≤ j) (e : ℝ) (f : Bool) : GoodRow (exCut j e f) :=
  ⟨by simp [exCut, Clean, hj], by simp [exCut]⟩

theorem exCut_measured (j : Int) (e : ℝ) (f : Bool) : Measured (exCut j e f) := ⟨⟨_, rfl⟩, _, rfl⟩

theorem Measured.comparable {l : List CutData} (h : ∀ c ∈ l, Measured c) : Comparable l :=
  ⟨fun c hc => (h c hc).1, Or.inl fun c hc => (h c hc).2⟩

/-- Non-vacuity of C21: three cuts, two of them parallel. -/
example : (∀ c ∈ [exCut 0 1 false, exCut 1 2 false, exCut 0 3 false], GoodRow c ∧ Measured c) ∧
    ∃ out, selectCuttingPlanes exSorter {} [exCut 0 1 false, exCut 1 2 false, exCut 0 3 false] = .ok out := by
  have h : ∀ c ∈ [exCut 0 1 false, exCut 1 2 false, exCut 0 3 false], GoodRow c ∧ Measured c := by
    simp only [List.mem_cons, List.not_mem_nil, or_false, forall_eq_or_imp, forall_eq]
    exact ⟨⟨exCut_good (by norm_num) _ _, exCut_measured _ _ _⟩, ⟨exCut_good (by norm_num) _ _, exCut_measured _ _ _⟩,
      ⟨exCut_good (by norm_num) _ _, exCut_measured _ _ _⟩⟩
  exact ⟨h, C21_selection_succeeds _ _ _ (by simp [exCut]) (Measured.comparable fun c hc => (h c hc).2)⟩

/-- The cut `x₀ ≤ 1` on a continuous variable, made at the point 1 + 10⁻⁷ for a zero objective. -/
noncomputable def nearCut : CutData :=
  createCut {} (fun _ => false) ⟨[⟨0, 1 + 1 / 10000000⟩], false⟩ ⟨[⟨0, 1⟩], false⟩ 1 "cut" false

/-- C21 fails for a zero objective: the parallelism of every cut is `0 / 0` (see C61), hence so is its
score, and a NaN is not below the threshold.  With default parameters a cut that is violated by 10⁻⁷
only is selected, although it would score 10⁻⁷ and the threshold is 10⁻⁶. -/
theorem C21_zero_objective_violated :
    GoodRow nearCut ∧ nearCut.efficacy = .fin (1 / 10000000) ∧ ({} : HybridParams).scoreThreshold = 1 / 1000000 ∧
    ∀ s : Sorter, ∃ c, selectCuttingPlanes s {} [nearCut] = .ok [c] ∧
      ¬ (RDbl.fin ({} : HybridParams).scoreThreshold).le (scoreOf c) := by
  have hrow : SparseVector.Clean (nearCut.row.entries) := by simp [nearCut, createCut, Clean]
  have heff : nearCut.efficacy = .fin (1 / 10000000) := by
    show computeEfficacy _ _ _ = _
    rw [computeEfficacy_fin (by simp [Clean]) (by simp)]
    norm_num [dotProduct, dotWalk]
  have hpar : nearCut.objectiveParallelism = .nan := C61_zero_objective_violated _ _ _ _ _ _ _ rfl
  have hgood : GoodRow nearCut := ⟨hrow, by simp [nearCut, createCut]⟩
  refine ⟨hgood, heff, rfl, fun s => ?_⟩
  have hc : ∀ c ∈ [nearCut], (∃ x, c.efficacy = .fin x) ∧ c.objectiveParallelism = .nan := by
    simp only [List.mem_singleton, forall_eq]
    exact ⟨⟨_, heff⟩, hpar⟩
  obtain ⟨out, h⟩ := C21_selection_succeeds s {} [nearCut] (by simp [nearCut, createCut])
    ⟨fun c h => (hc c h).1, Or.inr fun c h => (hc c h).2⟩
  obtain ⟨rest, h1, -, h3⟩ := C21_zero_objective s {} (by norm_num) _ out (by simpa using hgood) hc h
  have hlen := h1.length_eq
  simp only [List.length_append, List.map_cons, List.map_nil, List.length_singleton] at hlen
  rcases out with _ | ⟨a, _ | ⟨b, r⟩⟩
  · rcases rest with _ | ⟨b, r⟩
    · simp at hlen
    · rcases h3 b (by simp) with ⟨-, a, ha, -⟩ | ⟨h, -⟩
      · simp at ha
      · exact absurd rfl h
  · refine ⟨a, h, ?_⟩
    have := h1.mem_iff.1 (List.mem_append_left rest (List.mem_singleton_self a))
    simp only [List.map_cons, List.map_nil, List.mem_singleton] at this
    subst this
    simp [scoreOf, RDbl.le]
  · simp only [List.length_cons] at hlen; omega

/-! ## C22 -/

/-- C22 fails for the value 0, documented as "the selector is turned off": a good cut is
returned all the same, since the size is compared only after a cut has been added. -/
theorem C22_zero_limit_violated :
    ∃ (p : HybridParams) (cuts : List CutData), p.maxNumCuts = 0 ∧
      ∀ s : Sorter, ∃ out, selectCuttingPlanes s p cuts = .ok out ∧ out ≠ [] := by
  refine ⟨{ maxNumCuts := 0 }, [exCut 0 1 false], rfl, fun s => ?_⟩
  obtain ⟨out, h⟩ := C21_selection_succeeds s { maxNumCuts := 0 } [exCut 0 1 false] (by simp [exCut])
    (Measured.comparable (by simpa using exCut_measured 0 1 false))
  refine ⟨out, h, ?_⟩
  rintro rfl
  obtain ⟨scored, rest, h1, h2, -, -, -, h6⟩ := C21_selection_partial s _ _ _
    (by simpa using exCut_good le_rfl 1 false) (by simpa using exCut_measured 0 1 false) h
  obtain ⟨x, hx, hm⟩ := h1.mem (List.mem_singleton_self _)
  have := h6 _ (by simpa using h2.mem_iff.2 hm)
  simp only [computeCutScore, exCut, RDbl.scale, RDbl.add] at hx
  norm_num at hx
  simp only [scoreOf, Option.getD_some] at this
  rcases this with ⟨-, a, ha, -⟩ | ⟨-, h | h⟩
  · simp at ha
  · rw [← hx] at h; norm_num [RDbl.lt, RDbl.add] at h
  · exact h.1 rfl

theorem left_out (s : Sorter) (p : HybridParams) (cuts out : List CutData) (hg : ∀ c ∈ cuts, GoodRow c)
    (h : selectCuttingPlanes s p cuts = .ok out) :
    ∃ scored rest, Scored p cuts scored ∧ (out ++ rest).Perm scored ∧ ∀ c ∈ rest,
      (c.forced = false ∧ ∃ a ∈ out, ¬ NotTooParallel p a c) ∨ ¬ (RDbl.fin p.scoreThreshold).le (scoreOf c) ∨
        (out ≠ [] ∧ (out.length : Int) = p.maxNumCuts) := by
  simp only [selectCuttingPlanes, Outcome.bind_eq_ok] at h
  obtain ⟨scored, h1, h2⟩ := h
  have hs := scoreAll_spec h1
  obtain ⟨o, rest, g1, g2, -, -, -, g6, -⟩ := selectLoop_spec s p scored [] (selectLoop_weak h2) (hs.good hg)
  rw [g1, List.nil_append] at h2
  have h2 := Outcome.ok.inj h2
  subst h2
  simp only [List.nil_append] at g6
  refine ⟨scored, rest, hs, g2, fun c hc => ?_⟩
  rcases g6 c hc with ⟨h1, a, ha, -, h4⟩ | ⟨-, ⟨d, -, h3, h4⟩ | h3⟩
  · exact Or.inl ⟨h1, a, ha, h4⟩
  · exact Or.inr (Or.inl (not_le_of_lt h3 h4))
  · exact Or.inr (Or.inr h3)

/-- **C22**, proved part.  A positive limit is respected; with -1 (or any negative value)
the limit never is a reason to leave a cut out.  Missing (and false, see above): the value
0 turning the selector off; it is the same as no limit. -/
theorem C22_max_num_cuts_partial (s : Sorter) (p : HybridParams) (cuts out : List CutData)
    (hg : ∀ c ∈ cuts, GoodRow c) (h : selectCuttingPlanes s p cuts = .ok out) :
    (1 ≤ p.maxNumCuts → (out.length : Int) ≤ p.maxNumCuts) ∧
    (p.maxNumCuts ≤ 0 → ∃ scored rest, Scored p cuts scored ∧ (out ++ rest).Perm scored ∧
      ∀ c ∈ rest, ¬ (RDbl.fin p.scoreThreshold).le (scoreOf c) ∨
        (c.forced = false ∧ ∃ a ∈ out, ¬ NotTooParallel p a c)) := by
  constructor
  · intro h1
    simp only [selectCuttingPlanes, Outcome.bind_eq_ok] at h
    obtain ⟨scored, h2, h3⟩ := h
    obtain ⟨o, rest, g1, -, -, -, -, -, g7⟩ := selectLoop_spec s p scored [] (selectLoop_weak h3)
      ((scoreAll_spec h2).good hg)
    rw [g1] at h3
    have h3 := Outcome.ok.inj h3
    rw [← h3]
    exact g7 (by simp; omega)
  · intro h1
    obtain ⟨scored, rest, g1, g2, g6⟩ := left_out s p cuts out hg h
    refine ⟨scored, rest, g1, g2, fun c hc => ?_⟩
    rcases g6 c hc with ⟨hf, a, ha, hn⟩ | h | ⟨hne, h⟩
    · exact Or.inr ⟨hf, a, ha, hn⟩
    · exact Or.inl h
    · have := List.length_pos_iff.2 hne; omega

/-! ## C23 -/

/-- C23 fails: a forced cut below the score threshold is not selected, although there is no
limit and no other cut. -/
theorem C23_forced_below_threshold_violated :
    ∃ (p : HybridParams) (c : CutData), c.forced = true ∧ p.maxNumCuts = -1 ∧ GoodRow c ∧
      ∀ s : Sorter, selectCuttingPlanes s p [c] = .ok [] := by
  refine ⟨{}, exCut 0 (-1) true, rfl, rfl, exCut_good le_rfl _ _, fun s => ?_⟩
  obtain ⟨out, h⟩ := C21_selection_succeeds s {} [exCut 0 (-1) true] (by simp [exCut])
    (Measured.comparable (by simpa using exCut_measured 0 (-1) true))
  rw [h]
  obtain ⟨scored, rest, h1, h2, -, h4, -, -⟩ := C21_selection_partial s _ _ _
    (by simpa using exCut_good le_rfl (-1) true) (by simpa using exCut_measured 0 (-1) true) h
  rcases out with _ | ⟨a, r⟩
  · rfl
  · exfalso
    have hthr := h4 a (by simp)
    have ha := h2.mem_iff.1 (List.mem_append_left rest (List.mem_cons_self ..))
    cases h1 with
    | cons hx hr =>
      cases hr
      simp only [List.mem_singleton] at ha
      subst ha
      simp only [computeCutScore, exCut, RDbl.scale, RDbl.add] at hx
      norm_num at hx
      simp only [scoreOf, Option.getD_some] at hthr
      rw [← hx] at hthr; norm_num [RDbl.le, RDbl.add] at hthr

/-- **C23**, proved part.  A forced cut whose score reaches the threshold is selected
whichever other cuts are present, unless the limit is reached.  Missing (and false, see
above): forced cuts with a score below the threshold. -/
theorem C23_forced_selected_partial (s : Sorter) (p : HybridParams) (cuts out : List CutData)
    (hg : ∀ c ∈ cuts, GoodRow c) (h : selectCuttingPlanes s p cuts = .ok out) (c : CutData)
    (hc : c ∈ cuts) (hf : c.forced = true) :
    ∃ x, computeCutScore p c = .ok x ∧
      ((RDbl.fin p.scoreThreshold).le x → { c with score := some x } ∈ out ∨
        (1 ≤ p.maxNumCuts ∧ (out.length : Int) = p.maxNumCuts)) := by
  obtain ⟨scored, rest, h1, h2, h6⟩ := left_out s p cuts out hg h
  obtain ⟨x, hx, hm⟩ := h1.mem hc
  refine ⟨x, hx, fun hthr => ?_⟩
  rcases List.mem_append.1 (h2.mem_iff.2 hm) with hm | hm
  · exact Or.inl hm
  · rcases h6 _ hm with ⟨hf', -⟩ | h | ⟨hne, h⟩
    · simp [hf] at hf'
    · exact absurd hthr h
    · have := List.length_pos_iff.2 hne
      exact Or.inr ⟨by omega, h⟩

/-- Non-vacuity of C23: a forced cut next to a parallel, better one; its score is 11/10. -/
example : ∃ out, selectCuttingPlanes exSorter {} [exCut 0 1 true, exCut 0 3 false] = .ok out ∧
    computeCutScore {} (exCut 0 1 true) = .ok (.fin (11 / 10)) := by
  obtain ⟨out, h⟩ := C21_selection_succeeds exSorter {} [exCut 0 1 true, exCut 0 3 false]
    (by simp [exCut]) (Measured.comparable (by
      simp only [List.mem_cons, List.not_mem_nil, or_false, forall_eq_or_imp, forall_eq]
      exact ⟨exCut_measured _ _ _, exCut_measured _ _ _⟩))
  refine ⟨out, h, ?_⟩
  simp only [computeCutScore, exCut, RDbl.scale]; norm_num [RDbl.add]

/-! ## C62 -/

/-- The weighted sum of the metrics, as documented in parameters.proto:38-44 (without the
cutoff distance, for which there is no weight): the integer support is the fraction of the
non-zeros that belong to integer variables. -/
noncomputable def WeightedSum (p : HybridParams) (efficacy parallelism integers nonZeros : ℝ) : ℝ :=
  p.efficacyWeight * efficacy + p.objectiveParallelismWeight * parallelism +
    p.integerSupportWeight * (integers / nonZeros)

/-- C62 fails: the fraction is computed by integer division, so a cut with one integer and
one continuous variable gets no integer support at all. -/
theorem C62_integer_support_violated :
    ∃ (p : HybridParams) (c : CutData) (e q x : ℝ), 0 ≤ p.efficacyWeight ∧
      0 ≤ p.objectiveParallelismWeight ∧ 0 ≤ p.integerSupportWeight ∧
      0 ≤ c.numIntegers ∧ c.numIntegers ≤ c.numNonZeros ∧ 0 < c.numNonZeros ∧
      c.efficacy = .fin e ∧ c.objectiveParallelism = .fin q ∧
      computeCutScore p c = .ok (.fin x) ∧ x ≠ WeightedSum p e q c.numIntegers c.numNonZeros := by
  refine ⟨{}, { exCut 0 1 false with numNonZeros := 2 }, 1, 0, 1, ?_⟩
  have h : Int.tdiv 1 2 = 0 := by decide
  simp only [computeCutScore, exCut, WeightedSum, h, RDbl.scale]
  norm_num [RDbl.add]

/-- **C62**, proved part.  With non-negative weights the score is the weighted sum for every
cut (with an efficacy and a parallelism) whose variables are all integer or all continuous, and for every
cut if the integer support has weight zero.  Missing (and false, see above): cuts with both kinds. -/
theorem C62_score_partial (p : HybridParams) (c : CutData) (h1 : 0 ≤ p.efficacyWeight)
    (h2 : 0 ≤ p.objectiveParallelismWeight) (h3 : 0 ≤ p.integerSupportWeight)
    (hn : 0 < c.numNonZeros) {e q : ℝ} (he : c.efficacy = .fin e) (hq : c.objectiveParallelism = .fin q)
    (hc : c.numIntegers = 0 ∨ c.numIntegers = c.numNonZeros ∨ p.integerSupportWeight = 0) :
    computeCutScore p c = .ok (.fin (WeightedSum p e q c.numIntegers c.numNonZeros)) := by
  have e1 : (if 0 < p.efficacyWeight then c.efficacy.scale p.efficacyWeight else .fin 0) =
      RDbl.fin (p.efficacyWeight * e) := by
    split
    · rw [he]; rfl
    · rw [le_antisymm (not_lt.1 ‹_›) h1, zero_mul]
  have e2 : (if 0 < p.objectiveParallelismWeight then
      c.objectiveParallelism.scale p.objectiveParallelismWeight else .fin 0) =
      RDbl.fin (p.objectiveParallelismWeight * q) := by
    split
    · rw [hq]; rfl
    · rw [le_antisymm (not_lt.1 ‹_›) h2, zero_mul]
  have hn' : (c.numNonZeros : ℝ) ≠ 0 := by exact_mod_cast hn.ne'
  simp only [computeCutScore, e1, e2, WeightedSum, if_neg hn.ne', RDbl.add]
  split
  · rename_i hw
    rcases hc with h | h | h
    · simp [h]
    · rw [h, Int.tdiv_self hn.ne', div_self hn']; push_cast; congr 2; ring
    · exact absurd h hw.ne'
  · rename_i hw
    rw [le_antisymm (not_lt.1 hw) h3]; congr 2; ring

example : computeCutScore {} (exCut 0 1 false) = .ok (.fin (WeightedSum {} 1 0 1 1)) := by
  have := C62_score_partial {} (exCut 0 1 false) (by norm_num) (by norm_num) (by norm_num) (by simp [exCut])
    (e := 1) (q := 0) rfl rfl (Or.inr (Or.inl rfl))
  simpa [exCut] using this

end MiniMip.HybridSelector
