import Verif.Props.ProgramCuts

/-!
# One round of cuts

Helpers for C83: the calls of the cut runner return as long as only one round is allowed.
-/

namespace MiniMip

namespace Generator
open SparseVector (Clean)

theorem mem_of_value {v : SparseVector} {i : Int} (h : v.value i ≠ 0) : ∃ e ∈ v.entries, e.index = i := by
  by_contra hc
  push Not at hc
  apply h
  obtain ⟨l, d⟩ := v
  show SparseVector.valueAt l i = 0
  simp only at hc
  clear h
  induction l with
  | nil => rfl
  | cons e r ih =>
    rw [SparseVector.valueAt_cons, if_neg (hc e (by simp)), ih fun f hf => hc f (by simp [hf]), ite_self]

/-- All columns of the entries are below `n`. -/
def Below (n : Int) (v : SparseVector) : Prop := ∀ e ∈ v.entries, e.index < n

theorem substituteLoop_below {lp : LpView} (hr : RowsClean lp) {n : Int} (hn : ∀ row ∈ lp.rows, Below n row)
    {signs sides : SparseVector} (l : List Entry) {v v' : SparseVector} {r r' : Option ℚ} (hv : v.Good)
    (hb : Below n v) (h : substituteLoop lp signs sides l v r = .ok (v', r')) : Below n v' := by
  induction l generalizing v r with
  | nil =>
    simp only [substituteLoop, Outcome.ok.injEq, Prod.mk.injEq] at h
    obtain ⟨rfl, rfl⟩ := h
    exact hb
  | cons e l ih =>
    simp only [substituteLoop, Outcome.bind_eq_ok] at h
    obtain ⟨row, hrow, w, hw, h⟩ := h
    obtain ⟨-, hrow2⟩ := listAt_eq_ok.1 hrow
    have hmem := List.mem_of_getElem? hrow2
    have hc := scale_clean (hr row hmem).1 (signs.value e.index * e.value)
    obtain ⟨hg, -, hval⟩ := eval_addMultiple hv hc hw
    refine ih hg ?_ h
    intro f hf
    have hne : w.value f.index ≠ 0 := by
      rw [SparseVector.value, value_of_mem hg.1 hf]; exact (hg.1.2 f hf).1
    rw [hval] at hne
    by_cases h1 : v.value f.index = 0
    · rw [h1, zero_add] at hne
      obtain ⟨d, hd, hde⟩ := mem_of_value (right_ne_zero_of_mul hne)
      unfold SparseVector.scale at hd
      split at hd
      · simp at hd
      · obtain ⟨d', hd', rfl⟩ := List.mem_map.1 hd
        rw [← hde]; exact hn row hmem d' hd'
    · obtain ⟨d, hd, hde⟩ := mem_of_value h1
      rw [← hde]; exact hb d hd

theorem roundOne_below {c : GenContext} (hr : RowsClean c.lp) {n : Int} (hn : ∀ row ∈ c.lp.rows, Below n row)
    {w : SparseVector} (hw : Clean w.entries)
    {u : List Bool} {a a' : AggRow} (ha : aggregateByWeight c.lp w u = .ok a) {ok : Bool}
    (ht : toNonNegative c.lp a = .ok (a', ok)) {rounder : Rounder} {row : SparseVector} {rhs : ℚ}
    (h : roundOne c a' rounder = .ok (some (row, rhs))) : Below n row := by
  have hag := aggregate_spec hr hw ha
  obtain ⟨hv', hent, e1, -, -, -, -⟩ := shiftRow_vars hag.vars ht
  have hs' : a'.slackCoefs.Good := by rw [e1]; exact hag.slackCoefs
  have hcol : Below n a'.vars := by
    intro e he
    rw [hent] at he
    obtain ⟨d, hd, rfl⟩ := List.mem_map.1 he
    obtain ⟨f, hf, g, hg, hgd⟩ := column_origin hr hag hd
    obtain ⟨-, hrow, -⟩ := aggregate_inRange' ha f hf
    have := hn _ (List.mem_of_getElem? hrow) g hg
    simp only; omega
  unfold roundOne at h
  obtain ⟨rounded, hround, h⟩ := Outcome.bind_eq_ok.1 h
  cases rounded with
  | none => simp at h
  | some r =>
    simp only at h
    obtain ⟨⟨r1, ok⟩, hback, h⟩ := Outcome.bind_eq_ok.1 h
    cases ok with
    | false => simp at h
    | true =>
      simp only [Bool.not_true, Bool.false_eq_true, if_false] at h
      obtain ⟨r2, hsub, h⟩ := Outcome.bind_eq_ok.1 h
      have h := Outcome.ok.inj h
      rcases hr2 : r2.rhs with _ | b2
      · rw [hr2] at h; simp at h
      rw [hr2] at h
      simp only [Option.map_some, Option.some.injEq, Prod.mk.injEq] at h
      obtain ⟨rfl, rfl⟩ := h
      have hR : Rounded a' r := by
        cases rounder with
        | mir => obtain ⟨b, b', -, -, hrd, -⟩ := mirRound_spec hv' hs' hround; exact hrd
        | strongCG => obtain ⟨b, b', -, -, hrd, -⟩ := strongCGRound_spec hv' hs' hround; exact hrd
      obtain ⟨g1, g2, -⟩ := shiftRow_vars hR.vars hback
      unfold substituteSlacks at hsub
      obtain ⟨⟨v, q⟩, h1, h⟩ := Outcome.bind_eq_ok.1 hsub
      have h := Outcome.ok.inj h
      subst h
      refine substituteLoop_below hr hn _ g1 ?_ h1
      intro e he
      rw [g2] at he
      obtain ⟨d, hd, rfl⟩ := List.mem_map.1 he
      obtain ⟨f, hf, hfd⟩ := hR.varIdx d hd
      have := hcol f hf
      simp only; omega

/-- The rows of the cuts are rows of the LP: their columns exist.  The number of non-zeros stored with a
cut is that of its row. -/
theorem generate_below {c : GenContext} (hr : RowsClean c.lp) {n : Int} (hn : ∀ row ∈ c.lp.rows, Below n row)
    {s : SolverView} (hB : SolverClean s) {rs : List Rounder} {m : Int} {cuts : List CutData}
    (h : generateCuttingPlanes c s rs m = .ok cuts) :
    ∀ cut ∈ cuts, Below n cut.row ∧ cut.numNonZeros = cut.row.entries.length := by
  obtain ⟨-, -, -, primal, u, hp, ho, -⟩ := generate_spec h
  intro cut hc
  obtain ⟨⟨k, b, a, a', r, -, hb, ha, ht, -, hr2⟩, -, name, hname⟩ := ho cut hc
  rw [rowWeights_eq (hB k b hb)] at ha
  refine ⟨roundOne_below hr hn (hB k b hb).1 ha ht hr2, ?_⟩
  conv_lhs => rw [hname]
  rfl

end Generator

/-- The statistics of a cut made for the given objective. -/
def Rated (objective : SparseVector) (cut : CutData) : Prop :=
  (∃ x, cut.efficacy = .fin x) ∧ (objective.entries ≠ [] → ∃ x, cut.objectiveParallelism = .fin x) ∧
    (objective.entries = [] → cut.objectiveParallelism = .nan)

namespace Generator

theorem generate_rated {c : GenContext} (hr : RowsClean c.lp) (ho : SparseVector.Clean c.objective.entries)
    {s : SolverView} (hB : SolverClean s) {rs : List Rounder} {m : Int} {cuts : List CutData}
    (h : generateCuttingPlanes c s rs m = .ok cuts) :
    ∀ cut ∈ cuts, cut.row.entries ≠ [] → Rated c.objective cut := by
  obtain ⟨-, -, -, primal, u, hp, hor, -⟩ := generate_spec h
  intro cut hc hne
  obtain ⟨⟨k, b, a, a', r, -, hb, ha, ht, -, hr2⟩, -, name, hname⟩ := hor cut hc
  rw [rowWeights_eq (hB k b hb)] at ha
  have hg := roundOne_good hr (hB k b hb).1 ha ht hr2
  rw [hname]
  exact createCut_finite hg.1 hne ho

end Generator

theorem Rated.comparable {objective : SparseVector} {cuts : List CutData} (h : ∀ c ∈ cuts, Rated objective c) :
    HybridSelector.Comparable cuts := by
  refine ⟨fun c hc => (h c hc).1, ?_⟩
  by_cases ho : objective.entries = []
  · exact Or.inr fun c hc => (h c hc).2.2 ho
  · exact Or.inl fun c hc => (h c hc).2.1 ho

namespace Runner
variable {W : Type}

theorem addAll_returns {V : CutData → Prop} (hV : ∀ c i, V c → V (c.setIndex i)) (l : List CutData) :
    ∀ r : Runner W, (∀ c ∈ l, V c) → (∀ c ∈ r.registry.cuts, V c) →
      ∃ r' is, addAll r l = .ok (r', is) ∧ r'.world = r.world ∧ r'.numCutrounds = r.numCutrounds ∧
        (∀ c ∈ r'.registry.cuts, V c) ∧ r.registry.cuts.length ≤ r'.registry.cuts.length ∧
        ∀ i ∈ is, 0 ≤ i ∧ i < r'.registry.cuts.length := by
  induction l with
  | nil => intro r _ hr; exact ⟨r, [], rfl, rfl, rfl, hr, le_refl _, by simp⟩
  | cons c cs ih =>
    intro r hl hr
    obtain ⟨r', is, h1, h2, h3, h4, h5, h6⟩ := ih
      { r with registry := { r.registry with cuts := r.registry.cuts ++ [c.setIndex r.registry.cuts.length] } }
      (fun d hd => hl d (by simp [hd])) (by
        intro d hd
        rcases List.mem_append.1 hd with hd | hd
        · exact hr d hd
        · simp only [List.mem_singleton] at hd
          subst hd
          exact hV _ _ (hl c (by simp)))
    have hlen : r.registry.cuts.length + 1 ≤ r'.registry.cuts.length := by simpa using h5
    refine ⟨r', (r.registry.cuts.length : Int) :: is, ?_, h2, h3, h4, by omega, ?_⟩
    · unfold addAll
      simp only [CutRegistry.addCut, CutData.setIndex, CutData.getIndex, Outcome.bind_ok, Outcome.pure_eq]
      simp only [CutData.setIndex] at h1
      simp only [h1, Outcome.bind_ok]
    · intro i hi
      rcases List.mem_cons.1 hi with rfl | hi
      · omega
      · exact h6 i hi

theorem generate_returns {pl : Plugins W} {V : CutData → Prop} (hV : ∀ c i, V c → V (c.setIndex i)) {w : W}
    (hsel : ∀ reg l, (∀ c ∈ l, V c) → ∃ l', pl.select w reg l = .ok (w, l') ∧ ∀ c ∈ l', V c)
    (gs : List (W → CutRegistry → Outcome (W × List CutData)))
    (hgen : ∀ g ∈ gs, ∀ reg, ∃ cuts, g w reg = .ok (w, cuts) ∧ ∀ c ∈ cuts, V c) :
    ∀ r : Runner W, r.world = w → (∀ c ∈ r.registry.cuts, V c) →
      ∃ r' is, generate pl r gs = .ok (r', is) ∧ r'.world = w ∧ r'.numCutrounds = r.numCutrounds ∧
        (∀ c ∈ r'.registry.cuts, V c) ∧ r.registry.cuts.length ≤ r'.registry.cuts.length ∧
        ∀ i ∈ is, 0 ≤ i ∧ i < r'.registry.cuts.length := by
  induction gs with
  | nil => intro r hw hr; exact ⟨r, [], rfl, hw, rfl, hr, le_refl _, by simp⟩
  | cons g gs ih =>
    intro r hw hr
    have ih := ih fun g' hg' => hgen g' (by simp [hg'])
    obtain ⟨cuts, hc, hcV⟩ := hgen g (by simp) r.registry
    subst hw
    unfold generate
    simp only [hc, Outcome.bind_ok]
    split
    · exact ih r rfl hr
    · obtain ⟨l', hl, hlV⟩ := hsel r.registry cuts hcV
      obtain ⟨r1, is1, h1, h2, h3, h4, h5, h6⟩ := addAll_returns hV l' r hlV hr
      obtain ⟨r2, is2, g1, g2, g3, g4, g5, g6⟩ := ih r1 h2 h4
      refine ⟨r2, is1 ++ is2, ?_, g2, by rw [g3, h3], g4, by omega, ?_⟩
      · simp only [hl, Outcome.bind_ok]
        simp only [h1, g1, Outcome.bind_ok, Outcome.pure_eq]
      · intro i hi
        rcases List.mem_append.1 hi with hi | hi
        · have := h6 i hi; omega
        · exact g6 i hi

theorem addRows_returns {pl : Plugins W} {V : CutData → Prop} {I : W → Prop}
    (hadd : ∀ w c, I w → V c →
      ∃ w', pl.addRow w { row := c.row, lhs := pl.infinity.neg, rhs := .fin c.rhs, name := c.name } = .ok w' ∧ I w')
    (is : List Int) : ∀ r : Runner W, I r.world → (∀ c ∈ r.registry.cuts, V c) →
      (∀ i ∈ is, 0 ≤ i ∧ i < r.registry.cuts.length) →
      ∃ r', addRows pl r is = .ok r' ∧ I r'.world ∧ r'.numCutrounds = r.numCutrounds ∧
        r'.registry = r.registry := by
  induction is with
  | nil => intro r hi _ _; exact ⟨r, rfl, hi, rfl, rfl⟩
  | cons i is ih =>
    intro r hi hr his
    obtain ⟨h0, h1⟩ := his i (by simp)
    have hlt : i.toNat < r.registry.cuts.length := by omega
    have hget : r.registry.getCut i = .ok r.registry.cuts[i.toNat] := by
      simp [CutRegistry.getCut, not_lt.2 h0, hlt]
    obtain ⟨w', hw, hI⟩ := hadd r.world _ hi (hr _ (List.getElem_mem hlt))
    obtain ⟨r', g1, g2, g3, g4⟩ := ih { r with
        world := w'
        lpRows := r.lpRows ++ [LpRow.mk (r.registry.cuts[i.toNat]'hlt).row pl.infinity.neg
          (.fin (r.registry.cuts[i.toNat]'hlt).rhs) (r.registry.cuts[i.toNat]'hlt).name] } hI hr
      (fun j hj => his j (by simp [hj]))
    refine ⟨r', ?_, g2, g3, g4⟩
    unfold addRows
    simp only [hget, Outcome.bind_ok, hw]
    exact g1

/-- A call of the cut runner that may run at most one round returns, if its parts do. -/
theorem separate_one {p : RunnerParams} {pl : Plugins W} (hmax : p.maxIterations ≤ 1) {I : W → Prop}
    {V : CutData → Prop} (hV : ∀ c i, V c → V (c.setIndex i)) {r : Runner W} (hI : I r.world)
    (hr : ∀ c ∈ r.registry.cuts, V c) (h0 : 0 ≤ r.numCutrounds)
    (hgen : mayRun p pl r = true → ∀ g ∈ pl.generators, ∀ reg,
      ∃ cuts, g r.world reg = .ok (r.world, cuts) ∧ ∀ c ∈ cuts, V c)
    (hsel : ∀ w reg l, (∀ c ∈ l, V c) → ∃ l', pl.select w reg l = .ok (w, l') ∧ ∀ c ∈ l', V c)
    (hadd : ∀ w c, I w → V c →
      ∃ w', pl.addRow w { row := c.row, lhs := pl.infinity.neg, rhs := .fin c.rhs, name := c.name } = .ok w' ∧ I w')
    (hsolve : ∀ w, I w → ∃ w', pl.solve w = .ok w') :
    ∃ r', separateFuel p pl ((p.maxIterations - r.numCutrounds).toNat + 1) r = some (.ok r') ∧
      (∀ c ∈ r'.registry.cuts, V c) ∧
      ((r'.world = r.world ∧ r'.numCutrounds = r.numCutrounds) ∨
        (r'.numCutrounds = r.numCutrounds + 1 ∧ ∃ w, I w ∧ pl.solve w = .ok r'.world)) := by
  unfold separateFuel
  by_cases hm : mayRun p pl r = true
  · have hlt : r.numCutrounds < p.maxIterations := by
      by_contra hc
      unfold mayRun at hm
      rw [if_pos (show r.numCutrounds ≥ p.maxIterations by omega)] at hm
      revert hm
      split <;> [simp; split <;> simp]
    rw [if_pos hm]
    obtain ⟨r1, is, h1, h2, h3, h4, -, h6⟩ := generate_returns hV (hsel r.world) pl.generators (hgen hm) r rfl hr
    by_cases hi : is.isEmpty = true
    · have : round pl r = .ok (r1, false) := by
        simp only [round, h1, Outcome.bind_ok, hi, if_true, Outcome.pure_eq]
      rw [this]
      exact ⟨r1, rfl, h4, Or.inl ⟨h2, h3⟩⟩
    · obtain ⟨r2, g1, g2, g3, g4⟩ := addRows_returns hadd is r1 (by rw [h2]; exact hI) h4 h6
      obtain ⟨w', hw⟩ := hsolve _ g2
      have : round pl r = .ok ({ r2 with world := w', numCutrounds := r2.numCutrounds + 1 }, true) := by
        simp only [round, h1, Outcome.bind_ok, hi, Bool.false_eq_true, if_false, g1, hw, Outcome.pure_eq]
      rw [this]
      have hstop : mayRun p pl { r2 with world := w', numCutrounds := r2.numCutrounds + 1 } = false := by
        unfold mayRun
        rw [if_pos (show r2.numCutrounds + 1 ≥ p.maxIterations by omega)]
        split <;> [rfl; split <;> rfl]
      have hfuel : ∃ n, (p.maxIterations - r.numCutrounds).toNat = n + 1 :=
        ⟨(p.maxIterations - r.numCutrounds).toNat - 1, by omega⟩
      obtain ⟨n, hn⟩ := hfuel
      refine ⟨{ r2 with world := w', numCutrounds := r2.numCutrounds + 1 }, ?_, ?_, ?_⟩
      · rw [hn]
        unfold separateFuel
        simp only [hstop, Bool.false_eq_true, if_false]
      · intro c hc
        exact h4 c (by rw [← g4]; exact hc)
      · exact Or.inr ⟨by show r2.numCutrounds + 1 = _; rw [g3, h3], _, g2, hw⟩
  · rw [if_neg hm]
    exact ⟨r, rfl, hr, Or.inl ⟨rfl, rfl⟩⟩

end Runner
end MiniMip
