import Verif.Model.Reader
import Verif.Props.MipData

/-!
# Properties C55 and C56: reading a problem
-/

namespace MiniMip

/-! ### The meaning of a model -/

/-- The value of a constraint of the model at a point. -/
def ProtoConstraint.activity (c : ProtoConstraint) (x : Int → ℚ) : ℚ :=
  ((c.varIndex.zip c.coefficient).map fun t => t.2 * x t.1).sum

/-- The points a model allows. -/
def ModelProto.Feasible (m : ModelProto) (x : Int → ℚ) : Prop :=
  (∀ (n : Nat) (v : ProtoVariable), m.vars[n]? = some v →
    Between v.lower (x n) v.upper ∧ (v.isInteger = true → ∃ k : Int, x n = k)) ∧
  ∀ c ∈ m.constraints, Between c.lower (c.activity x) c.upper

/-- The objective of a model at a point. -/
def ModelProto.objectiveAt (m : ModelProto) (x : Int → ℚ) : ℚ :=
  ∑ n ∈ Finset.range m.vars.length, ((m.vars[n]?.map (·.objective)).getD 0) * x n + m.offset

/-- The model uses only linear constraints and a linear objective and has no annotations. -/
def ModelProto.Linear (m : ModelProto) : Prop :=
  m.generalConstraints = 0 ∧ m.quadraticObjective = false ∧ m.annotations = 0

/-- The model is well formed: names are given, bounds are ordered, indices exist and are unique, each
has a coefficient. -/
def ModelProto.WellFormed (m : ModelProto) : Prop :=
  (∀ v ∈ m.vars, v.name ≠ "" ∧ Dbl.le v.lower v.upper = true) ∧
  ∀ c ∈ m.constraints, c.name ≠ "" ∧ Dbl.le c.lower c.upper = true ∧
    c.varIndex.length = c.coefficient.length ∧ c.varIndex.Nodup ∧
    ∀ i ∈ c.varIndex, 0 ≤ i ∧ i < m.vars.length

/-- No bound is NaN and no constraint uses the index one past the last variable. -/
def ModelProto.Plain (m : ModelProto) : Prop :=
  (∀ v ∈ m.vars, v.lower ≠ .nan ∧ v.upper ≠ .nan) ∧
  ∀ c ∈ m.constraints, c.lower ≠ .nan ∧ c.upper ≠ .nan ∧ (m.vars.length : Int) ∉ c.varIndex

/-- The problem says the same as the model. -/
structure Problem.SaysSame (p : Problem) (m : ModelProto) : Prop where
  name : p.name = m.name
  sense : p.isMaximization = m.maximize
  variableNames : p.vars.map (·.name) = m.vars.map (·.name)
  constraintNames : p.constraints.map (·.name) = m.constraints.map (·.name)
  feasible : ∀ x, p.Feasible x ↔ m.Feasible x
  objective : ∀ x, p.userObjective x = m.objectiveAt x
  hints : p.hints.map (fun h => (h.varIndices, h.values)) =
    m.hint.toList.map fun h => (h.varIndex, h.varValue)

namespace Reader

/-- The problem the conversion builds. -/
def built (m : ModelProto) : Problem :=
  { name := m.name
    isMaximization := m.maximize
    offset := m.offset
    vars := m.vars.map fun v => ⟨v.name, v.objective, v.lower, v.upper, v.isInteger⟩
    constraints := m.constraints.map fun c => ⟨c.name, c.varIndex, c.coefficient, c.lower, c.upper⟩
    hints := match m.hint with
      | none => []
      | some h => [⟨h.varIndex, h.varValue⟩] }

theorem convert_ok_iff (m : ModelProto) (p : Problem) :
    convert m = .ok p ↔ m.Linear ∧ (built m).findError = "" ∧ p = built m := by
  unfold convert
  simp only [ModelProto.Linear]
  split
  · next h => simp [h]
  · next h =>
    split
    · next h2 => simp [h2]
    · next h2 =>
      split
      · next h3 => simp [h3]
      · next h3 =>
        simp only [ne_eq, not_not] at h h3
        simp only [Bool.not_eq_true] at h2
        change (if (built m).findError ≠ "" then _ else Outcome.ok (built m)) = _ ↔ _
        by_cases he : (built m).findError = ""
        · simp [he, h, h2, h3, eq_comm]
        · simp [he]

theorem convert_total (m : ModelProto) :
    (∃ p, convert m = .ok p) ∨ ∃ msg, convert m = .error msg := by
  unfold convert
  by_cases h1 : m.generalConstraints ≠ 0
  · rw [if_pos h1]; exact .inr ⟨_, rfl⟩
  rw [if_neg h1]
  by_cases h2 : m.quadraticObjective = true
  · rw [if_pos h2]; exact .inr ⟨_, rfl⟩
  rw [if_neg h2]
  by_cases h3 : m.annotations ≠ 0
  · rw [if_pos h3]; exact .inr ⟨_, rfl⟩
  rw [if_neg h3]
  change (∃ p, (if (built m).findError ≠ "" then _ else Outcome.ok (built m)) = .ok p) ∨
    ∃ msg, (if (built m).findError ≠ "" then _ else Outcome.ok (built m)) = .error msg
  by_cases h4 : (built m).findError ≠ ""
  · simp only [if_pos h4]; exact .inr ⟨_, rfl⟩
  · simp only [if_neg h4]; exact .inl ⟨_, rfl⟩

theorem objectiveFrom_eq_sum (k : Nat) (l : List Variable) (x : Int → ℚ) :
    objectiveFrom k l x =
      ∑ n ∈ Finset.range l.length, ((l[n]?.map (·.objective)).getD 0) * x ((k + n : Nat) : Int) := by
  induction l generalizing k with
  | nil => simp [objectiveFrom]
  | cons v r ih =>
    rw [objectiveFrom, ih, List.length_cons, Finset.sum_range_succ']
    simp only [List.getElem?_cons_zero, List.getElem?_cons_succ, Option.map_some, Option.getD_some,
      Nat.add_zero]
    rw [add_comm]
    congr 1
    refine Finset.sum_congr rfl fun n _ => ?_
    rw [show k + 1 + n = k + (n + 1) by omega]

theorem built_same (m : ModelProto) : (built m).SaysSame m where
  name := rfl
  sense := rfl
  variableNames := by simp [built]
  constraintNames := by simp [built]
  feasible x := by
    unfold Problem.Feasible ModelProto.Feasible
    refine and_congr ⟨fun h n v hv => ?_, fun h n v hv => ?_⟩ ?_
    · exact h n ⟨v.name, v.objective, v.lower, v.upper, v.isInteger⟩ (by simp [built, hv])
    · simp only [built, List.getElem?_map, Option.map_eq_some_iff] at hv
      obtain ⟨w, hw, rfl⟩ := hv
      exact h n w hw
    · simp [built, Constraint.activity, ProtoConstraint.activity]
  objective x := by
    rw [Problem.userObjective, objectiveFrom_eq_sum, ModelProto.objectiveAt]
    simp only [built, List.length_map, List.getElem?_map, Option.map_map, Nat.zero_add]
    rfl
  hints := by cases h : m.hint <;> simp [built, h]

theorem built_wellFormed (m : ModelProto) : (built m).WellFormed ↔ m.WellFormed := by
  simp [Problem.WellFormed, Variable.WellFormed, Constraint.WellFormed, Ordered, ModelProto.WellFormed,
    built]

/-- **C55**, partial: missing are models with a NaN bound or with an index one past the last variable,
which are accepted (`C55_index_at_end_violated`).  The conversion never aborts.  What it returns says
the same as the model: names, sense, feasible points, objective, hints.  A model that is not linear is
rejected; a well-formed linear model is accepted; a model without NaN and without that index is
accepted only if it is linear and well formed. -/
theorem C55_conversion_partial (m : ModelProto) :
    ((∃ p, convert m = .ok p) ∨ ∃ msg, convert m = .error msg) ∧
    (∀ p, convert m = .ok p → p.SaysSame m) ∧
    (¬ m.Linear → ∃ msg, convert m = .error msg) ∧
    (m.Linear → m.WellFormed → ∃ p, convert m = .ok p ∧ p.WellFormed) ∧
    (m.Plain → ∀ p, convert m = .ok p → m.Linear ∧ m.WellFormed ∧ p.WellFormed) := by
  refine ⟨convert_total m, fun p h => ?_, fun hl => ?_, fun hl hw => ?_, fun hpl p h => ?_⟩
  · obtain ⟨-, -, rfl⟩ := (convert_ok_iff m p).mp h
    exact built_same m
  · rcases convert_total m with ⟨p, hp⟩ | h
    · exact absurd ((convert_ok_iff m p).mp hp).1 hl
    · exact h
  · have hb := (built_wellFormed m).mpr hw
    exact ⟨built m, (convert_ok_iff m _).mpr ⟨hl, (Problem.C08_validation_partial _).1 hb, rfl⟩, hb⟩
  · obtain ⟨hl, he, rfl⟩ := (convert_ok_iff m p).mp h
    have hn : (built m).NoNaN := by
      simp only [Problem.NoNaN, built, List.mem_map, forall_exists_index, and_imp,
        forall_apply_eq_imp_iff₂]
      exact ⟨hpl.1, fun c hc => ⟨(hpl.2 c hc).1, (hpl.2 c hc).2.1⟩⟩
    have hi : (built m).NoIndexAtEnd := by
      simp only [Problem.NoIndexAtEnd, built, List.mem_map, forall_exists_index, and_imp,
        forall_apply_eq_imp_iff₂, List.length_map]
      exact fun c hc => (hpl.2 c hc).2.2
    have hw := (Problem.C08_validation_partial _).2 hn hi he
    exact ⟨hl, (built_wellFormed m).mp hw, hw⟩

/-- A model with an integer and a continuous variable, a constraint and a hint. -/
def exModel : ModelProto :=
  { name := "m", maximize := true, offset := 4
    vars := [⟨"x", 3, .fin 0, .fin 9, true⟩, ⟨"y", -2, .ninf, .pinf, false⟩]
    constraints := [⟨"c", [1, 0], [2, 5], .ninf, .fin 7⟩]
    hint := some ⟨[0], [1]⟩ }

example : exModel.Linear ∧ exModel.WellFormed ∧ exModel.Plain := by
  refine ⟨⟨rfl, rfl, rfl⟩, ?_, ?_⟩
  · simp [ModelProto.WellFormed, exModel, Dbl.le]
  · simp [ModelProto.Plain, exModel]

/-- A well-formed linear model passes the checks. -/
theorem accepted_parts {m : ModelProto} (hw : m.WellFormed) :
    (∀ v ∈ m.vars, v.name ≠ "" ∧ Dbl.lt v.upper v.lower = false) ∧
    ∀ c ∈ m.constraints, c.name ≠ "" ∧ ((∀ i ∈ c.varIndex, 0 ≤ i ∧ i ≤ m.vars.length) ∧ c.varIndex.Nodup) ∧
      c.varIndex.length = c.coefficient.length ∧ Dbl.lt c.upper c.lower = false := by
  have h := (Problem.findError_iff _).mp ((Problem.C08_validation_partial _).1 ((built_wellFormed m).mpr hw))
  simpa [built] using h

/-- **C55** is violated: adding a constraint on the variable one past the last one to any well-formed linear model gives
a model that is not well formed and is accepted. -/
theorem C55_index_at_end_violated (m : ModelProto) (hl : m.Linear) (hw : m.WellFormed) (a : ℚ) :
    let m' := { m with constraints :=
      m.constraints ++ [{ name := "c", varIndex := [(m.vars.length : Int)], coefficient := [a] }] }
    ¬ m'.WellFormed ∧ ∃ p, convert m' = .ok p := by
  obtain ⟨h1, h2⟩ := accepted_parts hw
  refine ⟨fun h => ?_, _, (convert_ok_iff _ _).mpr ⟨hl, ?_, rfl⟩⟩
  · have := (h.2 _ (List.mem_append_right _ (List.mem_singleton.2 rfl))).2.2.2.2 _ (List.mem_singleton.2 rfl)
    exact absurd this.2 (lt_irrefl _)
  · rw [Problem.findError_iff]
    simp only [built, List.mem_map, forall_exists_index, and_imp, forall_apply_eq_imp_iff₂, List.length_map]
    refine ⟨h1, fun c hc => ?_⟩
    rcases List.mem_append.1 hc with hc | hc
    · exact h2 c hc
    · obtain rfl := List.mem_singleton.1 hc
      simp [Dbl.lt]

/-- **C55** is violated: adding a variable with a NaN bound to any well-formed linear model gives a model that is not well
formed and is accepted. -/
theorem C55_nan_violated (m : ModelProto) (hl : m.Linear) (hw : m.WellFormed) (u : Dbl) :
    let m' := { m with vars := m.vars ++ [{ name := "x", lower := .nan, upper := u }] }
    ¬ m'.WellFormed ∧ ∃ p, convert m' = .ok p := by
  obtain ⟨h1, h2⟩ := accepted_parts hw
  refine ⟨fun h => ?_, _, (convert_ok_iff _ _).mpr ⟨hl, ?_, rfl⟩⟩
  · have := (h.1 _ (List.mem_append_right _ (List.mem_singleton.2 rfl))).2
    simp [Dbl.le] at this
  · rw [Problem.findError_iff]
    simp only [built, List.mem_map, forall_exists_index, and_imp, forall_apply_eq_imp_iff₂, List.length_map]
    refine ⟨fun v hv => ?_, fun c hc => ?_⟩
    · rcases List.mem_append.1 hv with hv | hv
      · exact h1 v hv
      · obtain rfl := List.mem_singleton.1 hv
        cases u <;> simp [Dbl.lt]
    · obtain ⟨g1, ⟨g2, g3⟩, g4⟩ := h2 c hc
      refine ⟨g1, ⟨fun i hi => ?_, g3⟩, g4⟩
      have := g2 i hi
      simp only [List.length_append, List.length_singleton]
      omega

/-! ### C56: the file extension -/

theorem rfind_spec (pattern s : List Char) (hs : s.length < npos) :
    (rfind pattern s = npos ∧ ∀ i ≤ s.length, ¬ pattern <+: s.drop i) ∨
    (rfind pattern s ≤ s.length ∧ pattern <+: s.drop (rfind pattern s) ∧
      ∀ i ≤ s.length, pattern <+: s.drop i → i ≤ rfind pattern s) := by
  unfold rfind
  split
  · next i hi =>
    right
    rw [List.find?_eq_some_iff_append] at hi
    obtain ⟨hp, as, bs, heq, has⟩ := hi
    have hmem : i ∈ (List.range (s.length + 1)).reverse := by rw [heq]; simp
    simp only [List.mem_reverse, List.mem_range] at hmem
    refine ⟨by omega, by simpa using hp, fun j hj hpj => ?_⟩
    by_contra hlt
    push Not at hlt
    have hjm : j ∈ as ++ i :: bs := by
      rw [← heq]; simp only [List.mem_reverse, List.mem_range]; omega
    have hsorted : (as ++ i :: bs).Pairwise (· > ·) := by
      rw [← heq, List.pairwise_reverse]; exact List.pairwise_lt_range
    rcases List.mem_append.mp hjm with h | h
    · have := has j h
      rw [List.isPrefixOf_iff_prefix.mpr hpj] at this
      simp at this
    · rcases List.mem_cons.mp h with rfl | h
      · exact lt_irrefl _ hlt
      · have := (List.pairwise_cons.mp (List.pairwise_append.mp hsorted).2.1).1 j h
        omega
  · next h =>
    left
    refine ⟨rfl, fun i hi hp => ?_⟩
    rw [List.find?_eq_none] at h
    have := h i (by simp only [List.mem_reverse, List.mem_range]; omega)
    exact this (List.isPrefixOf_iff_prefix.mpr hp)

/-- The format check passes exactly for the paths that end in `.mps` and for the paths with three
characters. -/
theorem wrongFormat_iff (path : List Char) (hs : path.length < npos) :
    wrongFormat path = false ↔ extension <:+ path ∨ path.length = 3 := by
  have hext : extension.length = 4 := rfl
  unfold wrongFormat
  rw [decide_eq_false_iff_not, not_not]
  have hn : npos = 18446744073709551615 := by decide
  have h64 : (2 : Nat) ^ 64 = 18446744073709551616 := by norm_num
  rw [h64]
  by_cases h4 : 4 ≤ path.length
  · have hmod : (path.length + 18446744073709551616 - 4) % 18446744073709551616 = path.length - 4 := by
      omega
    rw [hmod]
    have hlast : ∀ i ≤ path.length, extension <+: path.drop i → i ≤ path.length - 4 := by
      intro i hi hp
      have := hp.length_le
      rw [List.length_drop, hext] at this
      omega
    have hsuf : extension <+: path.drop (path.length - 4) ↔ extension <:+ path := by
      constructor
      · intro h
        have heq : extension = path.drop (path.length - 4) :=
          h.eq_of_length (by rw [List.length_drop, hext]; omega)
        rw [heq]; exact List.drop_suffix _ _
      · rintro ⟨t, ht⟩
        have : path.length - 4 = t.length := by rw [← ht, List.length_append, hext]; omega
        rw [this, ← ht, List.drop_left]
    rcases rfind_spec extension path hs with ⟨h1, h2⟩ | ⟨h1, h2, h3⟩
    · constructor
      · intro h; omega
      · rintro (h | h)
        · exact absurd (hsuf.mpr h) (h2 _ (by omega))
        · omega
    · constructor
      · intro h
        left
        rw [h] at h2
        exact hsuf.mp h2
      · rintro (h | h)
        · have a := h3 _ (by omega) (hsuf.mpr h)
          have b := hlast _ h1 h2
          omega
        · omega
  · have hno : ∀ i ≤ path.length, ¬ extension <+: path.drop i := by
      intro i hi hp
      have := hp.length_le
      rw [List.length_drop, hext] at this
      omega
    have hr : rfind extension path = npos := by
      rcases rfind_spec extension path hs with ⟨h1, -⟩ | ⟨h1, h2, -⟩
      · exact h1
      · exact absurd h2 (hno _ h1)
    rw [hr, hn]
    constructor
    · intro h; right; omega
    · rintro (h | h)
      · have := h.length_le
        omega
      · omega

/-- **C56**, partial: missing are paths with three characters (`C56_short_path_violated`).  An existing
path that does not end in `.mps` is rejected; one that does is read. -/
theorem C56_extension_partial (path : List Char) (hs : path.length < npos) (h3 : path.length ≠ 3)
    (parsed : Option ModelProto) :
    (¬ ['.', 'm', 'p', 's'] <:+ path → ∃ msg, readMipProblemFromMPSFile path true parsed = .error msg) ∧
    (['.', 'm', 'p', 's'] <:+ path →
      readMipProblemFromMPSFile path true parsed = readMipProblemFromString parsed) := by
  have h := wrongFormat_iff path hs
  constructor
  · intro hne
    have : wrongFormat path = true := by
      rw [← Bool.not_eq_false, h]
      rintro (h' | h')
      · exact hne h'
      · exact h3 h'
    exact ⟨_, by simp [readMipProblemFromMPSFile, this]; rfl⟩
  · intro he
    have : wrongFormat path = false := h.mpr (.inl he)
    simp [readMipProblemFromMPSFile, this, readMipProblemFromString]

example : ['.', 'm', 'p', 's'] <:+ "a.mps.mps".toList := by decide +kernel
example : ¬ ['.', 'm', 'p', 's'] <:+ "a.mps.gz".toList := by decide +kernel

/-- A missing file is an error. -/
theorem C56_missing_file (path : List Char) (parsed : Option ModelProto) :
    ∃ msg, readMipProblemFromMPSFile path false parsed = .error msg := ⟨_, rfl⟩

/-- **C56** is violated: every existing path with three characters is handed to the MPS parser,
although it cannot end in `.mps`. -/
theorem C56_short_path_violated (path : List Char) (h : path.length = 3)
    (parsed : Option ModelProto) :
    ¬ ['.', 'm', 'p', 's'] <:+ path ∧
    readMipProblemFromMPSFile path true parsed = readMipProblemFromString parsed := by
  refine ⟨fun hs => ?_, ?_⟩
  · have := hs.length_le
    simp at this
    omega
  · have : wrongFormat path = false :=
      (wrongFormat_iff path (by rw [h]; decide)).mpr (.inr h)
    simp [readMipProblemFromMPSFile, this, readMipProblemFromString]

end Reader
end MiniMip
