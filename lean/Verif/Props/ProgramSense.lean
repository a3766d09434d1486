import Verif.Props.ProgramRegistry
import Verif.Props.ProgramRange
import Verif.Model.IeeeProgramSelector

/-!
# C115: a maximisation problem is run as the minimisation of the negated objective

Two runs are compared: nothing is supposed about the LP code, the parameters or the problem.  The sense with the signs of
the objective, the offset, the hints and the name of the problem have no influence on what `Create` and `Solve` do.
-/

namespace MiniMip

/-! ### Specification -/

/-- The cost of a variable in a minimisation. -/
def Problem.cost (p : Problem) (v : Variable) : ℚ := if p.isMaximization then -v.objective else v.objective

/-- Two problems with the same constraints, and the same variables up to the objective: the costs are the same, whether
they are given as costs to be minimised or as gains to be maximised.  Nothing is said about names of the problems, offsets
and hints. -/
structure SameTask (p q : Problem) : Prop where
  vars : List.Forall₂ (fun v w => v.name = w.name ∧ v.lower = w.lower ∧ v.upper = w.upper ∧
    v.isInteger = w.isInteger ∧ p.cost v = q.cost w) p.vars q.vars
  constraints : p.constraints = q.constraints

/-- The same without the names of variables and constraints. -/
structure SameTaskRenamed (p q : Problem) : Prop where
  vars : List.Forall₂ (fun v w => v.lower = w.lower ∧ v.upper = w.upper ∧ v.isInteger = w.isInteger ∧
    p.cost v = q.cost w) p.vars q.vars
  constraints : List.Forall₂ (fun a b => a.varIndices = b.varIndices ∧ a.coefficients = b.coefficients ∧
    a.lhs = b.lhs ∧ a.rhs = b.rhs) p.constraints q.constraints
  named : (∀ w ∈ q.vars, w.name ≠ "") ∧ ∀ b ∈ q.constraints, b.name ≠ ""

/-! ### Calls that end in the same way -/

/-- Two calls end in the same way, with related values if they end well. -/
def Outcome.Rel {α β : Type} (R : α → β → Prop) : Outcome α → Outcome β → Prop
  | .ok a, .ok b => R a b
  | .error m, .error m' => m = m'
  | .abort, .abort => True
  | .ub, .ub => True
  | _, _ => False

theorem Outcome.Rel.bind {α β γ δ : Type} {R : α → β → Prop} {S : γ → δ → Prop} {x : Outcome α} {y : Outcome β}
    {f : α → Outcome γ} {g : β → Outcome δ} (h : Outcome.Rel R x y) (hf : ∀ a b, R a b → Outcome.Rel S (f a) (g b)) :
    Outcome.Rel S (x >>= f) (y >>= g) := by
  cases x <;> cases y <;> simp only [Outcome.Rel, Outcome.bind_ok, Outcome.bind_error, Outcome.bind_abort,
    Outcome.bind_ub] at h ⊢
  · exact hf _ _ h
  · exact h

theorem Outcome.Rel.same {α γ δ : Type} {S : γ → δ → Prop} (x : Outcome α)
    {f : α → Outcome γ} {g : α → Outcome δ} (hf : ∀ a, Outcome.Rel S (f a) (g a)) :
    Outcome.Rel S (x >>= f) (x >>= g) := by
  cases x <;> simp only [Outcome.Rel, Outcome.bind_ok, Outcome.bind_error, Outcome.bind_abort, Outcome.bind_ub]
  exact hf _

namespace MipData

/-- The same data up to name, sense, offset, hints and, unless `N`, names of variables and constraints, the objective
multiplied by `σ`. -/
structure Alike (N : Prop) (σ : ℚ) (d d' : MipData) : Prop where
  objective : d'.objective = ⟨d.objective.entries.map fun e => ⟨e.index, σ * e.value⟩, d.objective.dirty⟩
  variableNames : N → d'.variableNames = d.variableNames
  lower : d'.lower = d.lower
  upper : d'.upper = d.upper
  integerVariables : d'.integerVariables = d.integerVariables
  isIntegerType : d'.isIntegerType = d.isIntegerType
  constraintNames : N → d'.constraintNames = d.constraintNames
  lhs : d'.lhs = d.lhs
  rhs : d'.rhs = d.rhs
  isIntegralConstraint : d'.isIntegralConstraint = d.isIntegralConstraint
  matrix : d'.matrix = d.matrix

/-- The objective after the columns before `k`. -/
structure Upto (k : Nat) (v : SparseVector) : Prop where
  clean : v.dirty = false
  entries : ∀ e ∈ v.entries, e.value ≠ 0 ∧ e.index < k

theorem addEntry_upto {k : Nat} {v : SparseVector} (h : Upto k v) {x : ℚ} (hx : x ≠ 0) :
    v.addEntry k x = ⟨v.entries ++ [⟨k, x⟩], false⟩ := by
  have hl : v.lastIndex < k := by
    unfold SparseVector.lastIndex
    split
    · omega
    · rename_i e he
      exact (h.entries e (List.mem_of_getLast? he)).2
  simp [SparseVector.addEntry, h.clean, hx, not_le.2 hl]

theorem upto_addEntry {k : Nat} {v : SparseVector} (h : Upto k v) {x : ℚ} (hx : x ≠ 0) :
    Upto (k + 1) (v.addEntry k x) := by
  rw [addEntry_upto h hx]
  refine ⟨rfl, fun e he => ?_⟩
  rw [List.mem_append, List.mem_singleton] at he
  rcases he with he | rfl
  · have := h.entries e he
    exact ⟨this.1, by push_cast; linarith [this.2]⟩
  · exact ⟨hx, by push_cast; linarith⟩

theorem Upto.next {k : Nat} {v : SparseVector} (h : Upto k v) : Upto (k + 1) v :=
  ⟨h.clean, fun e he => ⟨(h.entries e he).1, by have := (h.entries e he).2; push_cast; linarith⟩⟩

theorem Upto.map {k : Nat} {v : SparseVector} (h : Upto k v) {σ : ℚ} (hσ : σ ≠ 0) :
    Upto k ⟨v.entries.map fun e => ⟨e.index, σ * e.value⟩, v.dirty⟩ := by
  refine ⟨h.clean, fun e he => ?_⟩
  obtain ⟨f, hf, rfl⟩ := List.mem_map.1 he
  exact ⟨mul_ne_zero hσ (h.entries f hf).1, (h.entries f hf).2⟩

theorem addVariables_alike {N : Prop} {σ : ℚ} (hσ : σ ≠ 0) {l l' : List Variable}
    (h : List.Forall₂ (fun v w => (N → v.name = w.name) ∧ v.lower = w.lower ∧ v.upper = w.upper ∧
      v.isInteger = w.isInteger ∧ w.objective = σ * v.objective) l l') :
    ∀ (k : Nat) (d d' : MipData), Alike N σ d d' → Upto k d.objective →
      Outcome.Rel (fun a b => Alike N σ a b ∧ Upto (k + l.length) a.objective) (addVariables d k l) (addVariables d' k l') := by
  induction h with
  | nil => intro k d d' h1 h2; exact ⟨h1, h2⟩
  | @cons v w l l' hvw _ ih =>
    intro k d d' hd hu
    obtain ⟨h1, h2, h3, h4, h5⟩ := hvw
    unfold addVariables
    refine Outcome.Rel.bind (R := fun a b => Alike N σ a b ∧ Upto (k + 1) a.objective) ?_ fun a b hab => ?_
    · unfold addVariable
      simp only [← h2, ← h3, ← h4]
      refine Outcome.Rel.same _ fun _ => ⟨⟨?_, ?_, ?_, ?_, ?_, ?_, hd.constraintNames, hd.lhs, hd.rhs,
        hd.isIntegralConstraint, hd.matrix⟩, ?_⟩
      · show (if w.objective ≠ 0 then d'.objective.addEntry k w.objective else d'.objective) = _
        by_cases hz : v.objective = 0
        · rw [if_neg (by rw [h5, hz]; simp), hd.objective]
          simp [hz]
        · have hz' : w.objective ≠ 0 := by rw [h5]; exact mul_ne_zero hσ hz
          have hu' : Upto k d'.objective := by rw [hd.objective]; exact hu.map hσ
          rw [if_pos hz', addEntry_upto hu' hz', hd.objective]
          simp [hz, addEntry_upto hu hz, h5]
      · intro hN; simp only [hd.variableNames hN, h1 hN]
      · simp only [hd.lower]
      · simp only [hd.upper]
      · simp only [hd.integerVariables]
      · simp only [hd.isIntegerType]
      · show Upto (k + 1) (if v.objective ≠ 0 then d.objective.addEntry k v.objective else d.objective)
        split
        · rename_i hz; exact upto_addEntry hu hz
        · exact hu.next
    · have := ih (k + 1) a b hab.1 hab.2
      rwa [show k + 1 + l.length = k + (v :: l).length by simp only [List.length_cons]; omega] at this

theorem addConstraints_alike {N : Prop} {σ : ℚ} {k : Nat} {l l' : List Constraint}
    (h : List.Forall₂ (fun a b => (N → a.name = b.name) ∧ a.varIndices = b.varIndices ∧ a.coefficients = b.coefficients ∧
      a.lhs = b.lhs ∧ a.rhs = b.rhs) l l') :
    ∀ (r : Nat) (d d' : MipData), Alike N σ d d' → Upto k d.objective →
      Outcome.Rel (fun a b => Alike N σ a b ∧ Upto k a.objective) (addConstraints d r l) (addConstraints d' r l') := by
  induction h with
  | nil => intro r d d' h1 h2; exact ⟨h1, h2⟩
  | @cons a b l l' hab _ ih =>
    intro r d d' hd hu
    obtain ⟨h1, h2, h3, h4, h5⟩ := hab
    unfold addConstraints
    refine Outcome.Rel.bind (R := fun a b => Alike N σ a b ∧ Upto k a.objective) ?_ fun a b hab => ih (r + 1) a b hab.1 hab.2
    unfold addConstraint
    rw [hd.matrix, hd.integerVariables, ← h2, ← h3, ← h4, ← h5]
    refine Outcome.Rel.same _ fun v => Outcome.Rel.same _ fun m => ⟨⟨hd.objective, hd.variableNames, hd.lower, hd.upper,
      ?_, hd.isIntegerType, ?_, ?_, ?_, ?_, rfl⟩, hu⟩
    · first | rfl | exact hd.integerVariables
    · intro hN; simp only [hd.constraintNames hN, h1 hN]
    · simp only [hd.lhs]
    · simp only [hd.rhs]
    · simp only [hd.isIntegralConstraint]

end MipData

theorem sign_ne (p : Problem) : (if p.isMaximization then (-1 : ℚ) else 1) ≠ 0 := by split <;> norm_num

theorem Problem.cost_eq (p : Problem) (v : Variable) :
    p.cost v = (if p.isMaximization then (-1 : ℚ) else 1) * v.objective := by
  unfold Problem.cost; split <;> ring

theorem ofProblem_alike {N : Prop} {p q : Problem}
    (hv : List.Forall₂ (fun v w => (N → v.name = w.name) ∧ v.lower = w.lower ∧ v.upper = w.upper ∧
      v.isInteger = w.isInteger ∧ p.cost v = q.cost w) p.vars q.vars)
    (hc : List.Forall₂ (fun a b => (N → a.name = b.name) ∧ a.varIndices = b.varIndices ∧ a.coefficients = b.coefficients ∧
      a.lhs = b.lhs ∧ a.rhs = b.rhs) p.constraints q.constraints) (order : MipData.HashOrder) :
    Outcome.Rel (MipData.Alike N 1) (MipData.ofProblem order p) (MipData.ofProblem order q) := by
  set τ : ℚ := if p.isMaximization then (-1 : ℚ) else 1 with hτ
  set τ' : ℚ := if q.isMaximization then (-1 : ℚ) else 1 with hτ'
  have hτ2 : τ * τ = 1 := by rw [hτ]; split <;> norm_num
  have hτ2' : τ' * τ' = 1 := by rw [hτ']; split <;> norm_num
  have hσ : τ * τ' ≠ 0 := mul_ne_zero (sign_ne p) (sign_ne q)
  have hvars : List.Forall₂ (fun v w => (N → v.name = w.name) ∧ v.lower = w.lower ∧ v.upper = w.upper ∧
      v.isInteger = w.isInteger ∧ w.objective = (τ * τ') * v.objective) p.vars q.vars := by
    refine hv.imp fun v w ⟨h1, h2, h3, h4, h5⟩ => ⟨h1, h2, h3, h4, ?_⟩
    rw [p.cost_eq, q.cost_eq, ← hτ, ← hτ'] at h5
    calc w.objective = τ' * (τ' * w.objective) := by rw [← mul_assoc, hτ2', one_mul]
      _ = τ * τ' * v.objective := by rw [← h5]; ring
  have hlen : p.vars.length = q.vars.length := hv.length_eq
  unfold MipData.ofProblem
  refine Outcome.Rel.bind (MipData.addVariables_alike hσ hvars 0 _ _
    ⟨rfl, fun _ => rfl, rfl, rfl, rfl, rfl, fun _ => rfl, rfl, rfl, rfl, ?_⟩
    ⟨rfl, by simp⟩) fun a b hab => ?_
  · simp only [hlen, hc.length_eq]
  obtain ⟨hab, hu⟩ := hab
  rw [Nat.zero_add] at hu
  have hub : MipData.Upto p.vars.length b.objective := by rw [hab.objective]; exact hu.map hσ
  have ha1 : a.objective.cleanUpIfNeeded = a.objective := by simp [SparseVector.cleanUpIfNeeded, hu.clean]
  have hb1 : b.objective.cleanUpIfNeeded = b.objective := by simp [SparseVector.cleanUpIfNeeded, hub.clean]
  simp only [ha1, hb1]
  refine Outcome.Rel.bind (MipData.addConstraints_alike (σ := τ * τ') (k := p.vars.length) hc 0 _ _
    ⟨hab.objective, hab.variableNames, hab.lower, hab.upper, hab.integerVariables, hab.isIntegerType, hab.constraintNames,
      hab.lhs, hab.rhs, hab.isIntegralConstraint, hab.matrix⟩ hu) fun a b hab => ?_
  obtain ⟨hab, hu⟩ := hab
  have key : ∀ (r : Problem) (d : MipData) (ρ : ℚ), MipData.Upto p.vars.length d.objective →
      ρ = (if r.isMaximization then (-1 : ℚ) else 1) →
      (if r.isMaximization then
        { d with offset := d.offset * (-1), objective := d.objective.transform (fun _ x => -x) } else d).objective =
      ⟨d.objective.entries.map fun e => ⟨e.index, ρ * e.value⟩, false⟩ := by
    intro r d ρ hd hρ
    subst hρ
    split
    · simp only [SparseVector.transform, hd.clean]
      congr 1
      rw [List.filter_eq_self.2]
      · simp
      · intro e he
        obtain ⟨f, hf, rfl⟩ := List.mem_map.1 he
        simpa using (hd.entries f hf).1
    · have hc := hd.clean
      cases hv : d.objective with
      | mk l b =>
        rw [hv] at hc
        simp only at hc
        simp [hc]
  have hub : MipData.Upto p.vars.length b.objective := by rw [hab.objective]; exact hu.map hσ
  have ka := key p { a with integerVariables := order.apply (MipData.reinsert a.integerVariables 0 a.isIntegerType) } τ hu hτ
  have kb := key q { b with integerVariables := order.apply (MipData.reinsert b.integerVariables 0 b.isIntegerType) } τ' hub hτ'
  show MipData.Alike N 1 _ _
  refine ⟨?_, ?_, ?_, ?_, ?_, ?_, ?_, ?_, ?_, ?_, ?_⟩
  · rw [kb, ka, hab.objective]
    simp only [List.map_map, SparseVector.mk.injEq, and_true]
    refine List.map_congr_left fun e _ => ?_
    simp only [Function.comp, Entry.mk.injEq, true_and, one_mul]
    calc τ' * (τ * τ' * e.value) = τ' * τ' * (τ * e.value) := by ring
      _ = _ := by rw [hτ2', one_mul]
  · intro hN; split <;> split <;> simp only [hab.variableNames hN]
  pick_goal 5
  · intro hN; split <;> split <;> simp only [hab.constraintNames hN]
  all_goals
    split <;> split <;> simp only [hab.lower, hab.upper, hab.integerVariables, hab.isIntegerType,
      hab.lhs, hab.rhs, hab.isIntegralConstraint, hab.matrix]

/-! ### The LP -/

section
variable (d : MipData) (name : String) (sense : Bool) (offset : ℚ) (hints : List Hint) (vs cs : List String)

/-- Data with another name, sense, offset and hints, and other names of variables and constraints. -/
def MipData.relabel : MipData :=
  { d with
    name := name, wasMaximization := sense, offset := offset, hints := hints
    variableNames := vs, constraintNames := cs }

/-- The same data up to name, sense, offset, hints and names. -/
theorem MipData.Alike.eq {N : Prop} {d d' : MipData} (h : MipData.Alike N 1 d d') :
    d' = d.relabel d'.name d'.wasMaximization d'.offset d'.hints d'.variableNames d'.constraintNames := by
  obtain ⟨h1, -, h3, h4, h5, h6, -, h8, h9, h10, h11⟩ := h
  have h1 : d'.objective = d.objective := by rw [h1]; simp
  cases d'
  simp only at h1 h3 h4 h5 h6 h8 h9 h10 h11
  subst h1 h3 h4 h5 h6 h8 h9 h10 h11
  rfl

theorem Glop.populateRows_relabel (n : Nat) : ∀ (g : Interface) (row : Nat),
    populateRows (d.relabel name sense offset hints d.variableNames d.constraintNames) g n row = populateRows d g n row := by
  induction n with
  | zero => intro g row; rfl
  | succ n ih => intro g row; unfold populateRows; simp only [ih]; rfl

theorem Glop.populateColumns_relabel (n : Nat) : ∀ (g : Interface) (m : SparseMatrix) (col : Nat),
    populateColumns (d.relabel name sense offset hints d.variableNames d.constraintNames) g m n col =
      populateColumns d g m n col := by
  induction n with
  | zero => intro g m col; rfl
  | succ n ih => intro g m col; unfold populateColumns; simp only [ih]; rfl

theorem Soplex.emptyRows_relabel (n : Nat) : ∀ row : Nat,
    emptyRows (d.relabel name sense offset hints vs cs) n row = emptyRows d n row := by
  induction n with
  | zero => intro row; rfl
  | succ n ih => intro row; unfold emptyRows; simp only [ih]; rfl

theorem Soplex.readColumns_relabel (objective : List ℚ) (n : Nat) : ∀ (m : SparseMatrix) (col : Nat),
    readColumns (d.relabel name sense offset hints vs cs) objective m n col = readColumns d objective m n col := by
  induction n with
  | zero => intro m col; rfl
  | succ n ih => intro m col; unfold readColumns; simp only [ih]; rfl

theorem Setup.populate_relabel (l : Setup.Lpi)
    (h : (∃ g, l = .soplex g) ∨ vs = d.variableNames ∧ cs = d.constraintNames) :
    l.populate (d.relabel name sense offset hints vs cs) = l.populate d := by
  cases l with
  | glop s g =>
    obtain ⟨g', hg⟩ | ⟨rfl, rfl⟩ := h
    · cases hg
    · simp only [Setup.Lpi.populate, Glop.populateFromMipData, Glop.populateRows_relabel, Glop.populateColumns_relabel]
      rfl
  | soplex g =>
    simp only [Setup.Lpi.populate, Soplex.populateFromMipData, Soplex.emptyRows_relabel, Soplex.readColumns_relabel]
    rfl

theorem Solver.solveFuel_relabel {W : Type} (o : Solver.Oracle W) (prm : Solver.Params) (fuel : Nat) : ∀ s : Solver.State W,
    Solver.solveFuel o (d.relabel name sense offset hints vs cs) prm fuel s = Solver.solveFuel o d prm fuel s := by
  induction fuel with
  | zero => intro s; rfl
  | succ fuel ih => intro s; unfold Solver.solveFuel; simp only [ih]; rfl

theorem Solver.resultAfter_relabel {W : Type} (o : Solver.Oracle W) (prm : Solver.Params) (fuel : Nat) :
    ∀ s : Solver.State W,
    Solver.resultAfter o (d.relabel name sense offset hints vs cs) prm fuel s = Solver.resultAfter o d prm fuel s := by
  induction fuel with
  | zero => intro s; rfl
  | succ fuel ih => intro s; unfold Solver.resultAfter; simp only [ih]; rfl

end

/-! ### `Create` -/

theorem variableError_same {p q : Problem} {l l' : List Variable}
    (h : List.Forall₂ (fun v w => v.name = w.name ∧ v.lower = w.lower ∧ v.upper = w.upper ∧
      v.isInteger = w.isInteger ∧ p.cost v = q.cost w) l l') : Problem.variableError l = Problem.variableError l' := by
  induction h with
  | nil => rfl
  | cons hv _ ih => simp only [Problem.variableError, hv.1, hv.2.1, hv.2.2.1, ih]

theorem SameTask.findError {p q : Problem} (h : SameTask p q) : p.findError = q.findError := by
  unfold Problem.findError
  rw [variableError_same h.vars, h.constraints, h.vars.length_eq]

theorem variableError_renamed {p q : Problem} {l l' : List Variable}
    (h : List.Forall₂ (fun v w => v.lower = w.lower ∧ v.upper = w.upper ∧
      v.isInteger = w.isInteger ∧ p.cost v = q.cost w) l l') (hn : ∀ w ∈ l', w.name ≠ "")
    (he : Problem.variableError l = "") : Problem.variableError l' = "" := by
  induction h with
  | nil => rfl
  | @cons v w l l' hv _ ih =>
    unfold Problem.variableError at he ⊢
    rw [if_neg (hn w (by simp)), ← hv.1, ← hv.2.1]
    split at he
    · simp at he
    · split at he
      · exact absurd he (by simp)
      · rename_i h2
        rw [if_neg h2]
        exact ih (fun w hw => hn w (by simp [hw])) he

theorem indexError_renamed (a b : String) (n : Nat) (l : List Int) : ∀ seen,
    Problem.indexError a n seen l = "" → Problem.indexError b n seen l = "" := by
  induction l with
  | nil => intro _ _; rfl
  | cons i l ih =>
    intro seen h
    unfold Problem.indexError at h ⊢
    split at h
    · exact absurd h (by simp)
    · split at h
      · exact absurd h (by simp)
      · split at h
        · exact absurd h (by simp)
        · rename_i h1 h2 h3
          rw [if_neg h1, if_neg h2, if_neg h3]
          exact ih _ h

theorem constraintsError_renamed (n : Nat) {l l' : List Constraint}
    (h : List.Forall₂ (fun a b => a.varIndices = b.varIndices ∧ a.coefficients = b.coefficients ∧
      a.lhs = b.lhs ∧ a.rhs = b.rhs) l l') (hn : ∀ w ∈ l', w.name ≠ "")
    (he : Problem.constraintsError n l = "") : Problem.constraintsError n l' = "" := by
  induction h with
  | nil => rfl
  | @cons a b l l' hab _ ih =>
    obtain ⟨h1, h2, h3, h4⟩ := hab
    have key : Problem.constraintError n a = "" → Problem.constraintError n b = "" := by
      intro hk
      unfold Problem.constraintError at hk ⊢
      rw [if_neg (hn b (by simp)), ← h1, ← h2, ← h3, ← h4]
      split at hk
      · exact absurd hk (by simp)
      · simp only at hk ⊢
        split at hk
        · rename_i hx; exact absurd hk hx
        · rename_i hx
          rw [if_neg (by rw [indexError_renamed _ b.name _ _ _ (not_not.1 hx)]; simp)]
          split at hk
          · exact absurd hk (by simp)
          · split at hk
            · exact absurd hk (by simp)
            · rename_i h5 h6
              rw [if_neg h5, if_neg h6]
    unfold Problem.constraintsError at he ⊢
    simp only at he ⊢
    split at he
    · rename_i hx; exact absurd he hx
    · rename_i hx
      rw [if_neg (by rw [key (not_not.1 hx)]; simp)]
      exact ih (fun w hw => hn w (by simp [hw])) he

theorem SameTaskRenamed.findError {p q : Problem} (h : SameTaskRenamed p q) (hp : p.findError = "") : q.findError = "" := by
  unfold Problem.findError at hp ⊢
  simp only at hp ⊢
  split at hp
  · rename_i hx; exact absurd hp hx
  · rename_i hx
    rw [if_neg (by rw [variableError_renamed h.vars h.named.1 (not_not.1 hx)]; simp), ← h.vars.length_eq]
    exact constraintsError_renamed _ h.constraints h.named.2 hp

/-- The same solver up to name, sense, offset, hints and names. -/
def Setup.Relabelled (c c' : Setup.Created) : Prop :=
  ∃ name sense offset hints vs cs, c' = { c with data := c.data.relabel name sense offset hints vs cs }

theorem create_alike {N : Prop} {p q : Problem}
    (hv : List.Forall₂ (fun v w => (N → v.name = w.name) ∧ v.lower = w.lower ∧ v.upper = w.upper ∧
      v.isInteger = w.isInteger ∧ p.cost v = q.cost w) p.vars q.vars)
    (hc : List.Forall₂ (fun a b => (N → a.name = b.name) ∧ a.varIndices = b.varIndices ∧ a.coefficients = b.coefficients ∧
      a.lhs = b.lhs ∧ a.rhs = b.rhs) p.constraints q.constraints)
    (he : p.findError = q.findError) (x : Setup.External) (user : Setup.ParamsMsg)
    (hN : N ∨ ∀ l, Setup.createLpSolver x ((Setup.userCustomized user).lp.getD {}).read = .ok l → ∃ g, l = .soplex g) :
    Outcome.Rel Setup.Relabelled (Setup.create x p user) (Setup.create x q user) := by
  unfold Setup.create
  simp only [he]
  split
  · exact rfl
  · refine Outcome.Rel.bind (ofProblem_alike (N := N) hv hc x.order) fun d d' hd => ?_
    refine Outcome.Rel.bind (R := fun a b => a = b ∧ (N ∨ ∃ g, a = .soplex g)) ?_ fun l l' hl => ?_
    · cases hl : Setup.createLpSolver x ((Setup.userCustomized user).lp.getD {}).read with
      | ok l => exact ⟨rfl, hN.imp id fun h => h l hl⟩
      | _ => simp [Outcome.Rel]
    · obtain ⟨rfl, hl⟩ := hl
      refine Outcome.Rel.same _ fun r => Outcome.Rel.same _ fun b => ?_
      have hpop := Setup.populate_relabel d d'.name d'.wasMaximization d'.offset d'.hints d'.variableNames
        d'.constraintNames l (hl.elim (fun h => Or.inr ⟨hd.variableNames h, hd.constraintNames h⟩) Or.inl)
      rw [← hd.eq] at hpop
      rw [hpop]
      exact Outcome.Rel.same _ fun l => ⟨_, _, _, _, _, _, by rw [← hd.eq]⟩

theorem forall₂_of_refl {α : Type} {R : α → α → Prop} (h : ∀ a, R a a) : ∀ l : List α, List.Forall₂ R l l
  | [] => .nil
  | a :: l => .cons (h a) (forall₂_of_refl h l)

namespace Program

/-- `Solve` does the same on both solvers, whatever the LP code, after any number of iterations: it has ended on both or
on none, in the same way, with equal results, trees, LPs and cuts; also when it is called again, with cuts in doubles, and
with generators and selector of the user. -/
def RunAlike (c c' : Setup.Created) : Prop :=
  ∀ (e : Engine) (fuel : Nat),
    solve e c' fuel = solve e c fuel ∧ resultAfter e c' fuel = resultAfter e c fuel ∧
    (∀ s, solveAgain e c' s fuel = solveAgain e c s fuel) ∧
    (∀ s t r, doubleRun s t r e c' fuel = doubleRun s t r e c fuel) ∧
    ∀ generators select, customSolve e c' generators select fuel = customSolve e c generators select fuel

theorem runAlike_of {c c' : Setup.Created} (h : Setup.Relabelled c c') : RunAlike c c' := by
  obtain ⟨n, s, o, l, vs, cs, rfl⟩ := h
  intro e fuel
  refine ⟨?_, ?_, fun _ => ?_, fun _ _ _ => ?_, fun _ _ => ?_⟩
  · exact Solver.solveFuel_relabel ..
  · exact Solver.resultAfter_relabel ..
  · exact Solver.solveFuel_relabel ..
  · exact Solver.solveFuel_relabel ..
  · exact Solver.solveFuel_relabel ..

/-- **C115.**  Take two problems with the same constraints and the same variables up to the objective, such that the costs
are the same: gains to be maximised count as negative costs.  Names, offsets and hints of the problems may differ.  For all
parameters and problems (well-formed or not) `Create` ends in the same way on both: with the same error, a crash on both, or
solvers for both, and then `Solve` does the same on both, whatever the LP code. -/
theorem C115_same_run {p q : Problem} (h : SameTask p q) (x : Setup.External) (user : Setup.ParamsMsg) :
    (∀ m, Setup.create x p user = .error m → Setup.create x q user = .error m) ∧
    (Setup.create x p user = .abort → Setup.create x q user = .abort) ∧
    (Setup.create x p user = .ub → Setup.create x q user = .ub) ∧
    ∀ c, Setup.create x p user = .ok c → ∃ c', Setup.create x q user = .ok c' ∧ RunAlike c c' := by
  have key := create_alike (N := True) (h.vars.imp fun v w hw => ⟨fun _ => hw.1, hw.2⟩)
    (by rw [← h.constraints]; exact forall₂_of_refl (fun _ => ⟨fun _ => rfl, rfl, rfl, rfl, rfl⟩) _)
    h.findError x user (Or.inl trivial)
  refine ⟨fun m hm => ?_, fun hm => ?_, fun hm => ?_, fun c hm => ?_⟩ <;> rw [hm] at key <;>
    cases hq : Setup.create x q user <;> rw [hq] at key <;> simp only [Outcome.Rel] at key
  · rw [key]
  · exact ⟨_, rfl, runAlike_of key⟩

/-- **C115, names.**  With SoPlex variables and constraints may also have other names, if they have any: if `Create` takes the
one problem, it takes the other, and `Solve` does the same on both. -/
theorem C115_soplex_names {p q : Problem} (h : SameTaskRenamed p q) (x : Setup.External) (user : Setup.ParamsMsg)
    {lp : LpParameters} (hlp : Setup.LpWins user.lp lp) (ht : lp.solverType = .soplex)
    (c : Setup.Created) (hc : Setup.create x p user = .ok c) :
    ∃ c', Setup.create x q user = .ok c' ∧ RunAlike c c' := by
  have hp : p.findError = "" := by
    by_contra hne
    unfold Setup.create at hc
    simp [hne] at hc
  have key := create_alike (N := False) (p := p) (q := q) (h.vars.imp fun v w hw => ⟨False.elim, hw⟩)
    (h.constraints.imp fun a b hw => ⟨False.elim, hw⟩) (by rw [hp, h.findError hp]) x user (Or.inr fun l hl => ?_)
  · rw [hc] at key
    cases hq : Setup.create x q user <;> rw [hq] at key <;> simp only [Outcome.Rel] at key
    exact ⟨_, rfl, runAlike_of key⟩
  · rw [Setup.effectiveLp, ← hlp.eq] at hl
    unfold Setup.createLpSolver at hl
    rw [ht] at hl
    simp only [Outcome.bind_eq_ok] at hl
    obtain ⟨n, -, r, -, hl⟩ := hl
    split at hl
    · exact ⟨_, (Outcome.ok.inj hl).symm⟩
    · cases hl

/-! ### Non-vacuity -/

/-- A problem with the other sense and the objective negated, and any other name, offset and hints. -/
def turned (p : Problem) (name : String) (offset : ℚ) (hints : List Hint) : Problem :=
  { name := name, vars := p.vars.map fun v => { v with objective := -v.objective }, constraints := p.constraints
    hints := hints, isMaximization := !p.isMaximization, offset := offset }

theorem turned_same (p : Problem) (name : String) (offset : ℚ) (hints : List Hint) :
    SameTask p (turned p name offset hints) := by
  refine ⟨?_, rfl⟩
  show List.Forall₂ _ p.vars (p.vars.map _)
  rw [List.forall₂_map_right_iff]
  refine forall₂_of_refl (fun v => ⟨rfl, rfl, rfl, rfl, ?_⟩) _
  simp only [Problem.cost, turned]
  by_cases hm : p.isMaximization = true <;> simp [hm]

/-- On `max 3 x + 2 y`, `5 x + 2 y ≤ 7` and on `min - 3 x - 2 y + 8` with the same constraint, `Solve` returns the same
solutions. -/
example (x : Setup.External) : openProblem.isMaximization = true ∧ (turned openProblem "q" 8 []).isMaximization = false ∧
    ∃ c c' s, Setup.create x openProblem exUser = .ok c ∧ Setup.create x (turned openProblem "q" 8 []) exUser = .ok c' ∧
      solve perfect c (rangeBound openProblem fun _ => (0, 7 / 2)) = some (.ok s) ∧ s.result.best ≠ {} ∧
      solve perfect c' (rangeBound openProblem fun _ => (0, 7 / 2)) = some (.ok s) := by
  obtain ⟨h1, h2, -, h4, h5, y, hy⟩ := openProblem_spec
  obtain ⟨c, hc, hs⟩ := C104_total_correctness openProblem h1 _ h4 h5 x exUser _ (Setup.lpWins _)
    (by refine ⟨⟨?_, ?_, ?_, ?_, ?_, ?_, ?_, ?_⟩, rfl, ?_, ?_, rfl, rfl⟩ <;>
        simp [exUser, Setup.LpMsg.read, ToleranceOk])
    ⟨0, le_rfl, rfl⟩ (by simp [exUser]) (by norm_num [exUser])
  obtain ⟨c', hc', hrun⟩ := (C115_same_run (turned_same openProblem "q" 8 []) x exUser).2.2.2 c hc
  rcases hs perfect perfect_spec.1 perfect_spec.2 with ⟨-, h⟩ | ⟨s, h, -, h'⟩
  · exact absurd hy (h y)
  · exact ⟨rfl, rfl, c, c', s, hc, hc', h, (h' y hy).1, by rw [(hrun perfect _).1]; exact h⟩

/-- Problems with different names that `C115_soplex_names` applies to. -/
example : SameTaskRenamed exProblem { turned exProblem "q" 8 [] with
      vars := (turned exProblem "q" 8 []).vars.map fun v => { v with name := v.name ++ "'" }
      constraints := exProblem.constraints.map fun k => { k with name := k.name ++ "'" } } ∧
    ∃ c, Setup.create Setup.exExternal exProblem soplexUser = .ok c := by
  obtain ⟨h1, -⟩ := exProblem_spec
  refine ⟨⟨?_, ?_, ?_⟩, ?_⟩
  · simp [exProblem, turned, Problem.cost]
  · simp [exProblem]
  · simp [exProblem, turned]
  · exact (Setup.C73_soplex_partial Setup.exExternal rfl _ rfl exProblem h1 soplexUser _ (Setup.lpWins _) rfl).2
      (fun _ _ => rfl) (fun _ _ => rfl)
      (by refine ⟨⟨?_, ?_, ?_, ?_, ?_, ?_, ?_, ?_⟩, rfl, ?_, ?_, ?_, ?_⟩ <;> simp [soplexUser, Setup.LpMsg.read, ToleranceOk])

end Program
end MiniMip
