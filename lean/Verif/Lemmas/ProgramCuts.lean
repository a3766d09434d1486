import Verif.Lemmas.SolverNode
import Verif.Props.Program
import Verif.Props.GeneratorNonneg
import Verif.Props.HybridSelector
import Verif.Props.BasisInverse
import Verif.Props.SoplexBasis

/-!
# The whole program with cuts: the stored rows
-/

namespace MiniMip

/-! ### Where the rows of the runner come from -/

namespace HybridSelector

theorem selectLoop_mem (s : Sorter) (p : HybridParams) (cuts selected : List CutData) :
    ∀ out, selectLoop s p cuts selected = .ok out → ∀ c ∈ out, c ∈ selected ∨ c ∈ cuts := by
  induction hn : cuts.length using Nat.strong_induction_on generalizing cuts selected with
  | _ n ih =>
    intro out hout c hc
    have hw := selectLoop_weak hout
    rw [selectLoop, if_pos hw] at hout
    split at hout
    · cases Outcome.ok.inj hout
      exact Or.inl hc
    · rename_i d rest hd
      have hmem : ∀ x, x ∈ d :: rest → x ∈ cuts := fun x hx => (s.perm cuts).mem_iff.1 (hd ▸ hx)
      have hlen := (s.perm cuts).length_eq
      rw [hd, List.length_cons] at hlen
      split at hout
      · cases Outcome.ok.inj hout
        exact Or.inl hc
      · split at hout
        · cases Outcome.ok.inj hout
          rcases List.mem_append.1 hc with h | h
          · exact Or.inl h
          · exact Or.inr (hmem c (by simp only [List.mem_singleton] at h; simp [h]))
        · have hlt : (keep p d rest).length < n := by
            have : (keep p d rest).length ≤ rest.length := List.length_filter_le ..
            omega
          rcases ih _ hlt (keep p d rest) (selected ++ [d]) rfl out hout c hc with h | h
          · rcases List.mem_append.1 h with h | h
            · exact Or.inl h
            · exact Or.inr (hmem c (by simp only [List.mem_singleton] at h; simp [h]))
          · exact Or.inr (hmem c (by simp [(List.mem_filter.1 h).1]))

/-- The selector returns cuts it was given, up to the score. -/
theorem select_mem {s : Sorter} {p : HybridParams} {cuts out : List CutData}
    (h : selectCuttingPlanes s p cuts = .ok out) :
    ∀ c ∈ out, ∃ d ∈ cuts, ∃ x, c = { d with score := some x } := by
  simp only [selectCuttingPlanes, Outcome.bind_eq_ok] at h
  obtain ⟨scored, h1, h2⟩ := h
  have hs := scoreAll_spec h1
  intro c hc
  rcases selectLoop_mem s p scored [] out h2 c hc with h | h
  · simp at h
  · clear hc h1 h2
    induction hs with
    | nil => simp at h
    | cons hx _ ih =>
      rcases List.mem_cons.1 h with rfl | h
      · exact ⟨_, by simp, _, rfl⟩
      · obtain ⟨d, hd, y⟩ := ih h
        exact ⟨d, by simp [hd], y⟩

end HybridSelector

namespace Runner

variable {W : Type}

/-- A property `V` of cuts (not of their position) that the generators establish in the states in `I`
and the selector keeps. -/
structure Makes (pl : Plugins W) (I : W → Prop) (V : CutData → Prop) : Prop where
  generators : ∀ g ∈ pl.generators, ∀ w reg w' cuts, I w → g w reg = .ok (w', cuts) → ∀ c ∈ cuts, V c
  select : ∀ w reg l w' cuts, pl.select w reg l = .ok (w', cuts) → (∀ c ∈ l, V c) → ∀ c ∈ cuts, V c
  index : ∀ c i, V c → V (c.setIndex i)

theorem addAll_cuts {V : CutData → Prop} (hV : ∀ c i, V c → V (c.setIndex i)) (l : List CutData) :
    ∀ (r r' : Runner W) (is : List Int), addAll r l = .ok (r', is) → (∀ c ∈ l, V c) →
      (∀ c ∈ r.registry.cuts, V c) → ∀ c ∈ r'.registry.cuts, V c := by
  induction l with
  | nil => intro r r' is h _ hr; cases h; exact hr
  | cons c cs ih =>
    intro r r' is h hl hr
    unfold addAll at h
    simp only [Outcome.bind_eq_ok] at h
    obtain ⟨⟨reg, i⟩, h0, ⟨r1, is1⟩, h1, h2⟩ := h
    cases h2
    refine ih _ _ _ h1 (fun d hd => hl d (by simp [hd])) ?_
    simp only [CutRegistry.addCut, CutData.setIndex, CutData.getIndex] at h0
    cases h0
    intro d hd
    rcases List.mem_append.1 hd with hd | hd
    · exact hr d hd
    · simp only [List.mem_singleton] at hd
      subst hd
      exact hV c _ (hl c (by simp))

theorem generate_cuts {pl : Plugins W} (hp : ReadsOnly pl) {I : W → Prop} {V : CutData → Prop}
    (hm : Makes pl I V) :
    ∀ (gs : List (W → CutRegistry → Outcome (W × List CutData))),
      (∀ g ∈ gs, g ∈ pl.generators) → ∀ (r r' : Runner W) (is : List Int),
      generate pl r gs = .ok (r', is) → I r.world → (∀ c ∈ r.registry.cuts, V c) →
      ∀ c ∈ r'.registry.cuts, V c := by
  intro gs
  induction gs with
  | nil => intro _ r r' is h _ hr; cases h; exact hr
  | cons g gs ih =>
    intro hgs r r' is h hi hr
    unfold generate at h
    simp only [Outcome.bind_eq_ok] at h
    obtain ⟨⟨w, cuts⟩, hg, h⟩ := h
    have hw := hp.generators g (hgs g (by simp)) _ _ _ _ hg
    have hv := hm.generators g (hgs g (by simp)) _ _ _ _ hi hg
    dsimp only at h
    split at h
    · exact ih (fun g hg => hgs g (by simp [hg])) _ _ _ h (by simp only [hw]; exact hi) hr
    · simp only [Outcome.bind_eq_ok] at h
      obtain ⟨⟨w2, fl⟩, hs, ⟨r2, is2⟩, ha, ⟨r3, is3⟩, h3, h4⟩ := h
      cases h4
      have h6 := addAll_world _ _ _ _ ha
      have h7 := hp.select _ _ _ _ _ hs
      have h8 := hm.select _ _ _ _ _ hs hv
      refine ih (fun g hg => hgs g (by simp [hg])) _ _ _ h3 ?_ (addAll_cuts hm.index _ _ _ _ ha h8 hr)
      rw [h6]
      simp only [h7, hw]
      exact hi

theorem getCut_mem {r : CutRegistry} {i : Int} {c : CutData} (h : r.getCut i = .ok c) : c ∈ r.cuts := by
  unfold CutRegistry.getCut at h
  split at h
  · cases h
  · split at h
    · rename_i d hd
      cases h
      exact List.mem_of_getElem? hd
    · cases h

theorem addRows_cuts {pl : Plugins W} {I : W → Prop} {V : CutData → Prop}
    (hadd : ∀ w c w', I w → V c →
      pl.addRow w { row := c.row, lhs := pl.infinity.neg, rhs := .fin c.rhs, name := c.name } = .ok w' → I w')
    (is : List Int) : ∀ (r r' : Runner W), addRows pl r is = .ok r' → I r.world →
      (∀ c ∈ r.registry.cuts, V c) → I r'.world ∧ r'.registry = r.registry := by
  induction is with
  | nil => intro r r' h hi _; cases h; exact ⟨hi, rfl⟩
  | cons i is ih =>
    intro r r' h hi hr
    unfold addRows at h
    simp only [Outcome.bind_eq_ok] at h
    obtain ⟨c, hc, w, hw, h⟩ := h
    have h2 := hadd _ _ _ hi (hr c (getCut_mem hc)) hw
    obtain ⟨g1, g2⟩ := ih _ _ h h2 hr
    exact ⟨g1, g2⟩

/-- What separation keeps if the rows it adds are those of cuts in `V`. -/
theorem separateFuel_cuts {p : RunnerParams} {pl : Plugins W} (hp : ReadsOnly pl) {I A : W → Prop}
    {V : CutData → Prop} (hm : Makes pl I V)
    (hadd : ∀ w c w', I w → V c →
      pl.addRow w { row := c.row, lhs := pl.infinity.neg, rhs := .fin c.rhs, name := c.name } = .ok w' → I w')
    (hsolve : ∀ w w', I w → pl.solve w = .ok w' → I w' ∧ A w') (n : Nat) :
    ∀ (r r' : Runner W), separateFuel p pl n r = some (.ok r') → I r.world →
      (∀ c ∈ r.registry.cuts, V c) → A r.world →
      I r'.world ∧ (∀ c ∈ r'.registry.cuts, V c) ∧ A r'.world := by
  induction n with
  | zero => intro r r' h; cases h
  | succ n ih =>
    intro r r' h hi hv ha
    unfold separateFuel at h
    split at h
    · cases hr : round pl r with
      | ok x =>
        obtain ⟨r1, b⟩ := x
        rw [hr] at h
        unfold round at hr
        simp only [Outcome.bind_eq_ok] at hr
        obtain ⟨⟨r2, is⟩, hg, hr⟩ := hr
        have hw := generate_world hp pl.generators (fun _ h => h) _ _ _ hg
        have hc := generate_cuts hp hm pl.generators (fun _ h => h) _ _ _ hg hi hv
        dsimp only at hr
        split at hr
        · cases hr
          cases h
          rw [hw]; exact ⟨hi, hc, ha⟩
        · simp only [Outcome.bind_eq_ok] at hr
          obtain ⟨r3, h3, w, h4, h5⟩ := hr
          cases h5
          obtain ⟨g1, g2⟩ := addRows_cuts hadd is _ _ h3 (by rw [hw]; exact hi) hc
          have := hsolve _ _ g1 h4
          exact ih _ _ h this.1 (by rw [← g2] at hc; exact hc) this.2
      | _ => rw [hr] at h; cases h
    · cases h; exact ⟨hi, hv, ha⟩

end Runner

/-! ### Stored rows -/

namespace Glop

open SparseVector (Clean StrictSorted sumAt valueAt)

/-- The columns are stored in order, without zeros and within the rows. -/
def Stored (lp : LinearProgram) : Prop :=
  ∀ col ∈ lp.cols, Clean col.entries ∧ ∀ e ∈ col.entries, e.index < lp.rows.length

theorem Refines.stored {lp : LinearProgram} {s : LpSpec} (h : Refines lp s) : Stored lp := by
  intro col hc
  obtain ⟨c, hc⟩ := List.getElem?_of_mem hc
  have := h.cols c col hc
  exact ⟨this.clean, fun e he => by rw [h.numRows]; exact this.range e he⟩

theorem Stored.withBounds {lp : LinearProgram} (h : Stored lp) (col : Nat) (lower upper : Dbl) :
    Stored (lp.withBounds col lower upper) := by
  intro k hk
  obtain ⟨c, hc⟩ := List.getElem?_of_mem hk
  rw [LinearProgram.withBounds_col, Option.map_eq_some_iff] at hc
  obtain ⟨k', hk', rfl⟩ := hc
  have := h k' (List.mem_of_getElem? hk')
  split <;> exact this

/-- Entries of one index in a clean list: at most one. -/
theorem filter_index_le {l : List Entry} (h : Clean l) (i : Int) :
    (l.filter fun e => decide (e.index = i)).length ≤ 1 := by
  obtain ⟨hs, -⟩ := h
  induction l with
  | nil => simp
  | cons e r ih =>
    have hs := List.pairwise_cons.1 hs
    by_cases he : e.index = i
    · have : r.filter (fun e => decide (e.index = i)) = [] := by
        rw [List.filter_eq_nil_iff]
        intro f hf
        have := hs.1 f hf
        simp; omega
      simp [he, this]
    · simpa [List.filter_cons, he] using ih hs.2

theorem setRow_range (k : Nat) : ∀ (l : List Entry) (lp lp' : LinearProgram), setRow k lp l = .ok lp' →
    ∀ e ∈ l, 0 ≤ e.index ∧ e.index < lp.cols.length := by
  intro l
  induction l with
  | nil => simp
  | cons f r ih =>
    intro lp lp' h e he
    rw [setRow, Outcome.bind_eq_ok] at h
    obtain ⟨lp1, h1, h2⟩ := h
    unfold LinearProgram.setCoefficient at h1
    split at h1
    · rename_i hf
      rcases List.mem_cons.mp he with rfl | he
      · exact hf
      · have := ih lp1 lp' h2 e he
        have hlen : lp1.cols.length = lp.cols.length := by
          rw [← Outcome.ok.inj h1]; simp
        rwa [hlen] at this
    · cases h1

theorem Stored.addRow {lp lp' : LinearProgram} (h : Stored lp) (row : Row) {l : List Entry} (hl : Clean l)
    (hs : setRow lp.rows.length { lp with rows := lp.rows ++ [row] } l = .ok lp') :
    Stored lp' ∧ lp'.rows = lp.rows ++ [row] ∧
    (∀ r < lp.rows.length, ∀ x, lp'.activity r x = lp.activity r x) ∧
    ∀ x, lp'.activity lp.rows.length x = evalEntries l x := by
  obtain ⟨h1, h2, h3, h4⟩ := setRow_cols _ _ _ _ hs
  refine ⟨?_, h1, fun r hr x => ((Extends.refl lp).addRow row l hs).1.activity hr x, fun x => ?_⟩
  · intro col hc
    obtain ⟨c, hc⟩ := List.getElem?_of_mem hc
    rw [h4, Option.map_eq_some_iff] at hc
    obtain ⟨k, hk, rfl⟩ := hc
    obtain ⟨g1, g2⟩ := h k (List.mem_of_getElem? hk)
    have hle := filter_index_le hl c
    have hmem : ∀ e ∈ (l.filter fun e => decide (e.index = (c : Int))).map
        fun e => (⟨(lp.rows.length : Int), e.value⟩ : Entry), e.index = lp.rows.length ∧ e.value ≠ 0 := by
      intro e he
      obtain ⟨f, hf, rfl⟩ := List.mem_map.1 he
      exact ⟨rfl, (hl.2 f (List.mem_filter.1 hf).1).1⟩
    refine ⟨⟨?_, ?_⟩, ?_⟩
    · refine List.pairwise_append.2 ⟨g1.1, ?_, ?_⟩
      · generalize hm : (l.filter fun e => decide (e.index = (c : Int))) = m at hle
        match m, hle with
        | [], _ => simp
        | [a], _ => simp
      · intro a ha b hb
        rw [(hmem b hb).1]
        exact g2 a ha
    · intro e he
      rcases List.mem_append.1 he with he | he
      · exact g1.2 e he
      · exact ⟨(hmem e he).2, by rw [(hmem e he).1]; omega⟩
    · intro e he
      rw [h1]
      simp only [List.length_append, List.length_singleton]
      rcases List.mem_append.1 he with he | he
      · have := g2 e he
        push_cast; omega
      · rw [(hmem e he).1]; push_cast; omega
  · rw [LinearProgram.activity, h3]
    have hz := zip_sum lp.cols.length (l.map fun e => (e.index, e.value)) x (by
      intro t ht
      obtain ⟨e, he, rfl⟩ := List.mem_map.1 ht
      exact setRow_range _ _ _ _ hs e he)
    simp only [List.map_map, Function.comp_def] at hz
    rw [evalEntries, ← hz]
    refine Finset.sum_congr rfl fun c hc => ?_
    congr 1
    have hlt := Finset.mem_range.1 hc
    rw [LinearProgram.coefficient, h4]
    simp only [List.getElem?_eq_getElem hlt, Option.map_some, Option.getD_some]
    rw [SparseVector.sumAt_append, SparseVector.sumAt_eq_zero (l := (lp.cols[c]).entries), zero_add]
    · generalize l = m
      induction m with
      | nil => rfl
      | cons e m ih =>
        by_cases he : e.index = (c : Int)
        · simp only [List.filter_cons, he, decide_true, if_true, List.map_cons, sumAt, List.sum_cons, ih]
        · simp only [List.filter_cons, he, decide_false, Bool.false_eq_true, if_false, List.map_cons,
            List.sum_cons, zero_add, ih]
    · intro e he
      have := (h _ (List.getElem_mem hlt)).2 e he
      omega

theorem Stored.transposed {lp : LinearProgram} (h : Stored lp) (r : Nat) :
    Clean (transposedRow r 0 lp.cols) ∧
    ∀ x, evalEntries (transposedRow r 0 lp.cols) x = lp.activity r x := by
  obtain ⟨h1, h2, h3⟩ := transposedRow_clean (r : Int) lp.cols 0 (fun c hc => (h c hc).1)
  refine ⟨h1, fun x => ?_⟩
  have hS : ∀ e ∈ transposedRow r 0 lp.cols,
      e.index ∈ (Finset.range lp.cols.length).image (Nat.cast : Nat → Int) := by
    intro e he
    obtain ⟨g1, g2⟩ := h2 e he
    rw [Finset.mem_image]
    exact ⟨e.index.toNat, by rw [Finset.mem_range]; omega, by omega⟩
  rw [evalEntries, SparseVector.sum_map_eq_finset h1.1 x _ hS, sum_int_range, LinearProgram.activity]
  refine Finset.sum_congr rfl fun c hc => ?_
  have hlt := Finset.mem_range.1 hc
  have := h3 c _ (List.getElem?_eq_getElem hlt)
  rw [Nat.zero_add] at this
  rw [this, LinearProgram.coefficient, List.getElem?_eq_getElem hlt, Option.map_some, Option.getD_some,
    SparseVector.valueAt_eq_sumAt (h _ (List.getElem_mem hlt)).1.1]

end Glop

namespace Program

open SparseVector (Clean)
open Glop (Stored)

/-- SoPlex hands out the non-zeros of a row in order. -/
def Engine.InOrder (e : Engine) : Prop := ∀ l, Clean l → e.order l = l

theorem sparseRow_spec {e : Engine} (he : e.InOrder) {l : Lp} (h : Stored l.program) (r : Nat) :
    (l.sparseRow e r).Good ∧ ∀ x, (l.sparseRow e r).eval x = l.program.activity r x := by
  cases l with
  | glop s =>
    obtain ⟨h1, h2⟩ := h.transposed r
    have : (Lp.glop s).sparseRow e r = ⟨Glop.transposedRow r 0 s.iface.lp.cols, false⟩ :=
      Glop.copyToSparse_clean h1
    rw [this]
    exact ⟨⟨h1, rfl⟩, h2⟩
  | soplex g =>
    obtain ⟨h1, h2⟩ := Glop.Stored.transposed (lp := g.lp) h r
    have : (Lp.soplex g).sparseRow e r = ⟨Glop.transposedRow r 0 g.lp.cols, false⟩ := by
      show Glop.copyEntries {} (e.order (Glop.transposedRow r 0 g.lp.cols)) = _
      rw [he _ h1, Glop.copyEntries_clean _ _ rfl (by simpa using h1)]
      rfl
    rw [this]
    exact ⟨⟨h1, rfl⟩, h2⟩

/-- Glop lists the positions of the non-zeros of a row of the basis inverse in increasing order. -/
def Report.Sorted (r : Report) : Prop := ∀ k, (r.glopInverse k).nonZeros.Pairwise (· < ·)

theorem addIndexed_good (d : List ℚ) (l : List Int) : ∀ (v w : SparseVector), v.Good →
    (∀ e ∈ v.entries, ∀ i ∈ l, e.index < i) → l.Pairwise (· < ·) →
    Soplex.addIndexed d v l = .ok w → w.Good := by
  induction l with
  | nil => intro v w hv _ _ h; cases h; exact hv
  | cons i r ih =>
    intro v w hv hi hs h
    rw [Soplex.addIndexed, Outcome.bind_eq_ok] at h
    obtain ⟨x, hx, h⟩ := h
    have h0 : 0 ≤ i := by
      by_contra hn
      simp [Soplex.denseAt, not_le.1 hn] at hx
    rw [List.pairwise_cons] at hs
    rw [addEntry_append hv h0 (fun e he => hi e he i (by simp))] at h
    split at h
    · exact ih v w hv (fun e he j hj => hi e he j (by simp [hj])) hs.2 h
    · rename_i hne
      refine ih _ w (good_append hv h0 (fun e he => hi e he i (by simp)) hne) ?_ hs.2 h
      intro e he j hj
      rcases List.mem_append.1 he with he | he
      · exact hi e he j (by simp [hj])
      · simp only [List.mem_singleton] at he
        subst he
        exact hs.1 j hj

theorem collect_good (keep : ℚ → Bool) (f : Nat → Outcome ℚ) (n : Nat) : ∀ (i : Nat) (v w : SparseVector),
    v.Good → (∀ e ∈ v.entries, e.index < i) → collect keep f n i v = .ok w → w.Good := by
  induction n with
  | zero => intro i v w hv _ h; cases h; exact hv
  | succ n ih =>
    intro i v w hv hi h
    rw [collect, Outcome.bind_eq_ok] at h
    obtain ⟨x, -, h⟩ := h
    have hi' : ∀ e ∈ v.entries, e.index < ((i + 1 : Nat) : Int) := fun e he => by
      have := hi e he; push_cast; omega
    split at h
    · rw [addEntry_append hv (by omega) hi] at h
      split at h
      · exact ih _ v w hv hi' h
      · rename_i hne
        refine ih _ _ w (good_append hv (by omega) hi hne) ?_ h
        intro e he
        rcases List.mem_append.1 he with he | he
        · exact hi' e he
        · simp only [List.mem_singleton] at he
          subst he
          push_cast; simp
    · exact ih _ v w hv hi' h

theorem solverClean {w : World} (h : ∀ s, w.lp = .glop s → w.report.Sorted) :
    Generator.SolverClean w.view := by
  intro k b hb
  have hb : w.inverseRow k = .ok b := hb
  unfold World.inverseRow at hb
  split at hb
  · rename_i s hs
    have h := h s hs
    dsimp only at hb
    unfold Glop.getSparseRowOfBInverted at hb
    split at hb
    · exact addIndexed_good _ _ _ _ .empty (by simp) (h k) hb
    · exact collect_good _ _ _ _ _ _ .empty (by simp) hb
  · rename_i g hg
    simp only [Soplex.getSparseRowOfBInverted, Outcome.bind_eq_ok] at hb
    obtain ⟨_, -, hb⟩ := hb
    split at hb
    · cases hb
    · rename_i a ha
      split at hb
      · cases hb
        exact SparseVector.cleanUp_clean (Soplex.addDense_spec {} SparseVector.Inv.init 0 _ (by simp)).1
      · rw [Outcome.bind_eq_ok] at hb
        obtain ⟨v, hv, hb⟩ := hb
        cases hb
        have hr : ∀ (l : List Int) (u u' : SparseVector), Soplex.addIndexed a.dense u l = .ok u' →
            ∀ i ∈ l, 0 ≤ i ∧ i < a.dense.length := by
          intro l
          induction l with
          | nil => simp
          | cons j r ih =>
            intro u u' h i hi
            rw [Soplex.addIndexed, Outcome.bind_eq_ok] at h
            obtain ⟨x, hx, h⟩ := h
            rcases List.mem_cons.1 hi with rfl | hi
            · unfold Soplex.denseAt at hx
              split at hx
              · cases hx
              · split at hx
                · cases hx
                · rename_i y hy
                  have := (List.getElem?_eq_some_iff.1 hy).1
                  omega
            · exact ih _ _ h i hi
        obtain ⟨u, h1, h2, -⟩ := Soplex.addIndexed_spec a.dense {} SparseVector.Inv.init _ (hr _ _ _ hv)
        rw [hv] at h1
        rw [Outcome.ok.inj h1]
        exact SparseVector.cleanUp_clean h2

end Program
end MiniMip
