import Verif.Props.SoplexStore
import Verif.Props.GlopSolve

/-!
# Properties C47, C51, C57, C64, C67 and C68 for the SoPlex interface
-/

namespace MiniMip
namespace Soplex

open Glop (LinearProgram Column Row NewColumn NewRow Modification Covered)

/-! ### One strong branching call -/

theorem modify_self {α : Type} (l : List α) (n : Nat) (f : α → α) (x : α) (hx : l[n]? = some x)
    (hf : f x = x) : l.modify n f = l := by
  apply List.ext_getElem?
  intro i
  rw [List.getElem?_modify]
  by_cases h : n = i
  · subst h; simp [hx, hf]
  · simp [h]

theorem modify_modify' {α : Type} (l : List α) (n : Nat) (f g : α → α) :
    (l.modify n f).modify n g = l.modify n fun x => g (f x) := by
  apply List.ext_getElem?
  intro i
  simp only [List.getElem?_modify]
  by_cases h : n = i
  · subst h; cases l[n]? <;> simp
  · cases l[i]? <;> simp [h]

theorem changeBounds_back (g : Interface) (col : Nat) (c : Column) (hc : g.lp.cols[col]? = some c)
    (lo up : Dbl) :
    (changeBounds (changeBounds g col lo up) col c.lower c.upper).lp = g.lp := by
  simp only [changeBounds]
  rw [modify_modify']
  rw [modify_self _ _ _ c hc rfl]

/-- What strong branching does not change: the LP, the parameters except the iteration limit, the
saved basis and `IsSolved`. -/
structure Same (g g' : Interface) : Prop where
  lp : g'.lp = g.lp
  settings : ∀ n, { g'.settings with iterlimit := n } = { g.settings with iterlimit := n }
  savedCols : g'.savedCols = g.savedCols
  savedRows : g'.savedRows = g.savedRows
  solved : g'.isSolved = g.isSolved

theorem Same.refl (g : Interface) : Same g g := ⟨rfl, fun _ => rfl, rfl, rfl, rfl⟩

theorem Same.trans {g h k : Interface} (h1 : Same g h) (h2 : Same h k) : Same g k :=
  ⟨h2.lp.trans h1.lp, fun n => (h2.settings n).trans (h1.settings n),
    h2.savedCols.trans h1.savedCols, h2.savedRows.trans h1.savedRows, h2.solved.trans h1.solved⟩

theorem Same.freed {g h : Interface} (h1 : Same g h) : freed h = freed g := by
  simp [Soplex.freed, h1.savedCols, h1.savedRows]

theorem setIterLimit_same (a : Accepts) (g : Interface) (n : Int) : Same g (setIterLimit a g n) := by
  unfold setIterLimit
  split
  · exact ⟨rfl, fun _ => rfl, rfl, rfl, rfl⟩
  · exact Same.refl g

theorem solveBranch_ok (a : Accepts) (g : Interface) (col : Nat) (c : Column)
    (hc : g.lp.cols[col]? = some c) (hf : freed g = false) (new : Dbl × Dbl) (n : Int)
    (b : BranchAnswer) :
    ∃ g', solveBranch a g col (c.lower, c.upper) new n b = .ok g' ∧ Same g g' := by
  have h2 := setIterLimit_same a (changeBounds g col new.1 new.2) n
  set g2 := setIterLimit a (changeBounds g col new.1 new.2) n with hg2
  have hf2 : freed { g2 with
      status := b.status, basisStatus := b.basisStatus, colStatus := b.colStatus,
      rowStatus := b.rowStatus } = false := by
    have : freed g2 = freed (changeBounds g col new.1 new.2) := h2.freed
    exact this.trans hf
  refine ⟨_, by
    unfold solveBranch
    dsimp only
    rw [← hg2, hf2]
    rfl, ?_, ?_, ?_, ?_, ?_⟩
  · have := changeBounds_back g col c hc new.1 new.2
    rw [← this]
    simp only [changeBounds, restoreBasis, h2.lp]
  · exact h2.settings
  · exact h2.savedCols
  · exact h2.savedRows
  · exact h2.solved

/-- The result of one call, case by case. -/
theorem branch_ok (a : Accepts) (g : Interface) (col : Nat) (c : Column)
    (hc : g.lp.cols[col]? = some c) (hf : freed g = false) (v eps : ℚ) (n : Int)
    (down up : BranchAnswer) :
    ∃ g' r problems, solveDownAndUpStrongBranch a g col v eps n down up = .ok (g', r, problems) ∧
      Same g g' ∧
      (a.int .iterlimit g.settings.iterlimit = true → g'.settings = g.settings) ∧
      (branchBound (objectiveLimit g) down ≠ none → branchBound (objectiveLimit g) up ≠ none →
        ∃ r', r = some r') ∧
      (let solveDown := Dbl.le (Dbl.sub c.lower (.fin (1 / 2))) (.fin (downBranchBound v eps))
       let solveUp := Dbl.le (.fin (upBranchBound v eps)) (Dbl.add c.upper (.fin (1 / 2)))
       let limit := objectiveLimit g
       ∀ r', r = some r' →
        problems = (if solveDown then [(c.lower, .fin (downBranchBound v eps))] else []) ++
          (if solveUp then [(Dbl.fin (upBranchBound v eps), c.upper)] else []) ∧
        (solveDown = true → ∃ d, branchBound limit down = some d ∧
          r'.downBound = some d.1 ∧ r'.downValid = d.2) ∧
        (solveDown = false → r'.downBound = some limit ∧ r'.downValid = true) ∧
        (solveUp = true → ∃ d, branchBound limit up = some d ∧
          r'.upBound = some d.1 ∧ r'.upValid = d.2) ∧
        (solveUp = false → r'.upBound = some limit ∧ r'.upValid = true) ∧
        r'.iterations = (if solveDown then down.iterations else 0) +
          (if solveUp then up.iterations else 0)) := by
  have hcol : column g (col : Int) = .ok c := by
    simp [column, hc, show ¬ (col : Int) < 0 by omega]
  have hfin : ∀ g2 : Interface, Same g g2 →
      Same g (setIterLimit a g2 g.settings.iterlimit) ∧
      (a.int .iterlimit g.settings.iterlimit = true →
        (setIterLimit a g2 g.settings.iterlimit).settings = g.settings) := by
    intro g2 h2
    refine ⟨h2.trans (setIterLimit_same a g2 _), fun ha => ?_⟩
    simp only [setIterLimit, ha, if_true]
    exact h2.settings _
  unfold solveDownAndUpStrongBranch
  simp only [hcol, Outcome.bind_ok]
  by_cases hd : Dbl.le (Dbl.sub c.lower (.fin (1 / 2))) (.fin (downBranchBound v eps)) = true
  · obtain ⟨g1, h1, hs1⟩ := solveBranch_ok a g col c hc hf (c.lower, .fin (downBranchBound v eps)) n
      down
    simp only [hd, if_true, h1, Outcome.bind_ok]
    cases hb : branchBound (objectiveLimit g) down with
    | none =>
      refine ⟨_, _, _, rfl, (hfin g1 hs1).1, (hfin g1 hs1).2, fun h _ => absurd rfl h, ?_⟩
      intro r' hr'
      simp at hr'
    | some d =>
      simp only [Option.map_some]
      by_cases hu : Dbl.le (.fin (upBranchBound v eps)) (Dbl.add c.upper (.fin (1 / 2))) = true
      · obtain ⟨g2, h2, hs2⟩ := solveBranch_ok a g1 col c (by rw [hs1.lp]; exact hc)
          (by rw [hs1.freed]; exact hf) (.fin (upBranchBound v eps), c.upper) n up
        have hs2 := hs1.trans hs2
        simp only [hu, if_true, h2, Outcome.bind_ok]
        refine ⟨_, _, _, rfl, (hfin g2 hs2).1, (hfin g2 hs2).2, fun _ h => by
          obtain ⟨e, he⟩ := Option.ne_none_iff_exists'.mp h
          exact ⟨_, by rw [he]; rfl⟩, ?_⟩
        intro r' hr'
        cases hb2 : branchBound (objectiveLimit g) up with
        | none => simp [hb2] at hr'
        | some e =>
          simp only [hb2, Option.map_some, Option.some.injEq] at hr'
          subst hr'
          simp
      · simp only [Bool.not_eq_true] at hu
        simp only [hu, Bool.false_eq_true, if_false]
        refine ⟨_, _, _, rfl, (hfin g1 hs1).1, (hfin g1 hs1).2, fun _ _ => ⟨_, rfl⟩, ?_⟩
        intro r' hr'
        simp only [Option.some.injEq] at hr'
        subst hr'
        simp
  · simp only [Bool.not_eq_true] at hd
    simp only [hd, Bool.false_eq_true, if_false]
    by_cases hu : Dbl.le (.fin (upBranchBound v eps)) (Dbl.add c.upper (.fin (1 / 2))) = true
    · obtain ⟨g2, h2, hs2⟩ := solveBranch_ok a g col c hc hf (.fin (upBranchBound v eps), c.upper) n
        up
      simp only [hu, if_true, h2, Outcome.bind_ok]
      refine ⟨_, _, _, rfl, (hfin g2 hs2).1, (hfin g2 hs2).2, fun _ h => by
        obtain ⟨e, he⟩ := Option.ne_none_iff_exists'.mp h
        exact ⟨_, by rw [he]; rfl⟩, ?_⟩
      intro r' hr'
      cases hb2 : branchBound (objectiveLimit g) up with
      | none => simp [hb2] at hr'
      | some e =>
        simp only [hb2, Option.map_some, Option.some.injEq] at hr'
        subst hr'
        simp
    · simp only [Bool.not_eq_true] at hu
      simp only [hu, Bool.false_eq_true, if_false]
      refine ⟨_, _, _, rfl, (hfin g (Same.refl g)).1, (hfin g (Same.refl g)).2, fun _ _ => ⟨_, rfl⟩, ?_⟩
      intro r' hr'
      simp only [Option.some.injEq] at hr'
      subst hr'
      simp

/-! ### C51 -/

theorem downBranchBound_eq {v eps : ℚ} (hv : ∀ n : ℤ, v - eps ≠ n) :
    downBranchBound v eps = ⌊v - eps⌋ := by
  unfold downBranchBound
  have h2 := Int.floor_le (v - eps)
  have h3 := Int.lt_floor_add_one (v - eps)
  have h4 : (⌊v - eps⌋ : ℚ) < v - eps := lt_of_le_of_ne h2 (Ne.symm (hv _))
  norm_cast
  rw [Int.ceil_eq_iff]
  constructor <;> linarith

theorem upBranchBound_eq (v eps : ℚ) : upBranchBound v eps = ⌊v - eps⌋ + 1 := by
  unfold upBranchBound
  have : v + 1 - eps = v - eps + 1 := by ring
  rw [this, Int.floor_add_one]
  push_cast; rfl

/-- **C51** (SoPlex), partial: what is missing are values that lie exactly the tolerance above an
integer (`C51_tolerance_above_integer_violated`).  During strong branching, if the call returns OK, every integer between the bounds
of the column lies in a problem that was solved or in a range without values, no integer lies in
both, and every problem keeps the other bound of the column. -/
theorem C51_branches_cover_partial (a : Accepts) (g : Interface) (col : Nat) (lower upper : Dbl)
    (hlo : getLowerBound g col = .ok lower) (hup : getUpperBound g col = .ok upper)
    (v eps : ℚ) (n : Int) (down up : BranchAnswer) (hv : ∀ n : ℤ, v - eps ≠ n)
    {g' : Interface} {r : BranchResult} {problems : List (Dbl × Dbl)}
    (h : solveDownAndUpStrongBranch a g col v eps n down up = .ok (g', some r, problems))
    (hf : freed g = false) :
    (∀ x : ℤ, Dbl.le lower (.fin x) = true → Dbl.le (.fin x) upper = true → Covered problems x) ∧
    (∀ p ∈ problems, ∀ q ∈ problems, ∀ x : ℤ,
      Dbl.le p.1 (.fin x) = true → Dbl.le (.fin x) p.2 = true →
      Dbl.le q.1 (.fin x) = true → Dbl.le (.fin x) q.2 = true → p = q) ∧
    (∀ p ∈ problems, p.1 = lower ∨ p.2 = upper) ∧
    ((∀ n : ℤ, eps < |v - n|) → 0 ≤ eps → ¬ Covered problems v) := by
  obtain ⟨c, hc, hcl⟩ : ∃ c, g.lp.cols[col]? = some c ∧ c.lower = lower := by
    simp only [getLowerBound, column, Int.toNat_natCast] at hlo
    rw [if_neg (by omega)] at hlo
    cases hc : g.lp.cols[col]? with
    | none => simp [hc] at hlo
    | some c => exact ⟨c, rfl, by simpa [hc] using hlo⟩
  have hcu : c.upper = upper := by
    simpa [getUpperBound, column, hc, show ¬ (col : Int) < 0 by omega] using hup
  subst hcl hcu
  obtain ⟨g2, r2, p2, h1, -, -, -, h2⟩ := branch_ok a g col c hc hf v eps n down up
  rw [h] at h1
  have h1 := Outcome.ok.inj h1
  simp only [Prod.mk.injEq] at h1
  obtain ⟨rfl, rfl, rfl⟩ := h1
  obtain ⟨hp, -⟩ := h2 r rfl
  rw [downBranchBound_eq hv, upBranchBound_eq v eps] at hp
  have hbounds : ∀ p ∈ problems, (p.1 = c.lower ∧ p.2 = .fin ⌊v - eps⌋) ∨
      (p.1 = .fin (⌊v - eps⌋ + 1) ∧ p.2 = c.upper) := by
    intro p hpm
    rw [hp, List.mem_append] at hpm
    rcases hpm with hpm | hpm
    · split at hpm
      · simp only [List.mem_singleton] at hpm; subst hpm; exact .inl ⟨rfl, rfl⟩
      · simp at hpm
    · split at hpm
      · simp only [List.mem_singleton] at hpm; subst hpm; exact .inr ⟨rfl, rfl⟩
      · simp at hpm
  have hdisj : ∀ y : ℚ, ∀ z : ℚ, Dbl.le (.fin y) (.fin z) = true → y ≤ z := by
    intro y z hyz; simpa [Dbl.le] using hyz
  refine ⟨?_, ?_, ?_, ?_⟩
  · intro x hl hx
    by_cases hxv : x ≤ ⌊v - eps⌋
    · have hle : (x : ℚ) ≤ (⌊v - eps⌋ : ℚ) := by exact_mod_cast hxv
      refine ⟨(c.lower, .fin ⌊v - eps⌋), ?_, hl, by simpa [Dbl.le] using hle⟩
      rw [hp]
      simp only [Glop.le_sub_half hl hle, if_true]
      simp
    · have hle : (⌊v - eps⌋ : ℚ) + 1 ≤ (x : ℚ) := by
        have : ⌊v - eps⌋ + 1 ≤ x := by omega
        exact_mod_cast this
      refine ⟨(.fin (⌊v - eps⌋ + 1), c.upper), ?_, by simpa [Dbl.le] using hle, hx⟩
      rw [hp]
      simp only [Glop.le_add_half hx hle, if_true]
      simp
  · intro p hpm q hqm x h3 h4 h5 h6
    rcases hbounds p hpm with ⟨hp1, hp2⟩ | ⟨hp1, hp2⟩ <;>
      rcases hbounds q hqm with ⟨hq1, hq2⟩ | ⟨hq1, hq2⟩
    · exact Prod.ext (hp1.trans hq1.symm) (hp2.trans hq2.symm)
    · rw [hp2] at h4; rw [hq1] at h5
      have := hdisj _ _ h4
      have := hdisj _ _ h5
      linarith
    · rw [hq2] at h6; rw [hp1] at h3
      have := hdisj _ _ h6
      have := hdisj _ _ h3
      linarith
    · exact Prod.ext (hp1.trans hq1.symm) (hp2.trans hq2.symm)
  · intro p hpm
    rcases hbounds p hpm with ⟨hp1, -⟩ | ⟨-, hp2⟩
    · exact .inl hp1
    · exact .inr hp2
  · rintro hn h0 ⟨p, hpm, h3, h4⟩
    have h5 := Int.floor_le (v - eps)
    have h6 := Int.lt_floor_add_one (v - eps)
    rcases hbounds p hpm with ⟨-, hp2⟩ | ⟨hp1, -⟩
    · rw [hp2] at h4
      have := hdisj _ _ h4
      have h7 := hn ⌊v - eps⌋
      have h8 : v - (⌊v - eps⌋ : ℚ) ≤ 0 := by linarith
      rw [abs_of_nonpos h8] at h7
      linarith
    · rw [hp1] at h3
      have := hdisj _ _ h3
      have h7 := hn (⌊v - eps⌋ + 1)
      push_cast at h7
      rw [abs_of_nonneg (by linarith)] at h7
      linarith

/-- Parameters for examples. -/
def someSettings : Settings :=
  { solveFromScratch := false, scaler := .biequi, simplifier := true, pricer := .auto
    feastol := .fin (1 / 10 ^ 6), opttol := .fin (1 / 10 ^ 6), minMarkowitz := .fin (1 / 100)
    factorUpdateMax := 0, objlimitLower := .ninf, objlimitUpper := .fin 100, timer := .wallclock
    timelimit := .fin 1000, iterlimit := -1, seed := 0, debug := false }

/-- All values are accepted. -/
def acceptEvery : Accepts := ⟨fun _ _ => true, fun _ _ => true⟩

/-- An interface with a basis: two columns, one row. -/
def solvedInterface : Interface :=
  { lp := twoColumns, colStatus := [.basic, .onUpper], rowStatus := [.fixed]
    status := .optimal, basisStatus := .optimal, settings := someSettings, isSolved := true }

/-- The same after `StartStrongBranching`. -/
def branchingInterface : Interface :=
  { solvedInterface with savedCols := [.basic, .onUpper], savedRows := [.fixed] }

/-- An answer in strong branching. -/
def branchOptimal (x : ℚ) : BranchAnswer := ⟨.optimal, .optimal, .fin x, 2, [.onLower, .basic], [.onLower]⟩
/-- Another one. -/
def branchInfeasible : BranchAnswer := ⟨.infeasible, .infeasible, .fin 0, 1, [.onLower, .basic], [.onLower]⟩

example : startStrongBranching solvedInterface = .ok branchingInterface := rfl

example : ∀ n : ℤ, (5 / 2 : ℚ) - 1 / 1000000 ≠ n := by
  intro n h
  have h1 : (2 : ℚ) < n := by rw [← h]; norm_num
  have h2 : (n : ℚ) < 3 := by rw [← h]; norm_num
  have h1 : (2 : ℤ) < n := by exact_mod_cast h1
  have h2 : n < (3 : ℤ) := by exact_mod_cast h2
  omega

/-- **C51** is violated when the value lies exactly the tolerance above an integer: value 3 + 1/10^6,
tolerance 1/10^6, bounds 0 and 10: the value 3 lies in neither problem. -/
theorem C51_tolerance_above_integer_violated (a : Accepts) (g : Interface) (hf : freed g = false)
    (col : Nat) (c : Column) (hc : g.lp.cols[col]? = some c) (hl : c.lower = .fin 0)
    (hu : c.upper = .fin 10) (x y : ℚ) (n : Int) :
    ∃ g' r problems, solveDownAndUpStrongBranch a g col (3 + 1 / 10 ^ 6) (1 / 10 ^ 6) n
      (branchOptimal x) (branchOptimal y) = .ok (g', some r, problems) ∧ ¬ Covered problems 3 := by
  obtain ⟨g', r, problems, h1, -, -, h5, h2⟩ :=
    branch_ok a g col c hc hf (3 + 1 / 10 ^ 6) (1 / 10 ^ 6) n (branchOptimal x) (branchOptimal y)
  obtain ⟨r', rfl⟩ := h5 (by simp [branchBound, branchOptimal]) (by simp [branchBound, branchOptimal])
  refine ⟨g', r', problems, h1, ?_⟩
  obtain ⟨h3, -⟩ := h2 r' rfl
  have hd : downBranchBound (3 + 1 / 10 ^ 6) (1 / 10 ^ 6) = 2 := by
    norm_num [downBranchBound, Int.ceil_eq_iff]
  have hu' : upBranchBound (3 + 1 / 10 ^ 6) (1 / 10 ^ 6) = 4 := by
    norm_num [upBranchBound, Int.floor_eq_iff]
  rw [h3, hd, hu', hl, hu]
  unfold Covered
  norm_num [Dbl.le, Dbl.sub, Dbl.add, Dbl.neg]

/-- The value beyond which solutions are of no interest: the upper limit on the objective if it is minimised, the lower
limit if it is maximised. -/
def Cutoff (g : Interface) (x : Dbl) : Prop :=
  (g.lp.maximize = false → x = g.settings.objlimitUpper) ∧ (g.lp.maximize = true → x = g.settings.objlimitLower)

theorem cutoff_limit (g : Interface) : Cutoff g (objectiveLimit g) := by
  unfold Cutoff objectiveLimit
  cases g.lp.maximize <;> simp

/-- **C51** (SoPlex): in a call that returns OK a bound is marked valid only if its own branch was
solved to optimality, in which case it is the objective value, or was cut off, was infeasible or has
no value, in which case it is the limit on the objective. -/
theorem C51_flags (a : Accepts) (g : Interface) (hf : freed g = false) (col : Nat)
    (hcol : (col : Int) < getNumberOfColumns g) (v eps : ℚ) (n : Int) (down up : BranchAnswer)
    {g' : Interface} {r : BranchResult} {problems : List (Dbl × Dbl)}
    (h : solveDownAndUpStrongBranch a g col v eps n down up = .ok (g', some r, problems)) :
    (r.downValid = true →
      (down.status = .optimal ∧ r.downBound = some down.objective) ∨
      ((∃ x, r.downBound = some x ∧ Cutoff g x) ∧ (down.status = .abortValue ∨
        down.status = .infeasible ∨ ∀ p ∈ problems, p.2 ≠ .fin ⌈v - 1 - eps⌉ ∨
          p.1 = .fin ⌊v + 1 - eps⌋))) ∧
    (r.upValid = true →
      (up.status = .optimal ∧ r.upBound = some up.objective) ∨
      ((∃ x, r.upBound = some x ∧ Cutoff g x) ∧ (up.status = .abortValue ∨
        up.status = .infeasible ∨ ∀ p ∈ problems, p.1 ≠ .fin ⌊v + 1 - eps⌋ ∨
          p.2 = .fin ⌈v - 1 - eps⌉))) := by
  have hcol : col < g.lp.cols.length := by simpa [getNumberOfColumns] using hcol
  obtain ⟨g2, r2, p2, h1, -, -, -, h2⟩ := branch_ok a g col _ (List.getElem?_eq_getElem hcol) hf v eps n
    down up
  rw [h] at h1
  have h1 := Outcome.ok.inj h1
  simp only [Prod.mk.injEq] at h1
  obtain ⟨rfl, rfl, rfl⟩ := h1
  obtain ⟨hp, hd1, hd2, hu1, hu2, -⟩ := h2 r rfl
  have key : ∀ (b : BranchAnswer) (d : Dbl × Bool), branchBound (objectiveLimit g) b = some d →
      d.2 = true → (b.status = .optimal ∧ d.1 = b.objective) ∨
        (d.1 = objectiveLimit g ∧ (b.status = .abortValue ∨ b.status = .infeasible)) := by
    intro b d hb hd
    unfold branchBound at hb
    cases hs : b.status <;> simp [hs] at hb <;> subst hb <;> simp_all
  constructor
  · intro hvd
    cases hs : Dbl.le (Dbl.sub g.lp.cols[col].lower (.fin (1 / 2))) (.fin (downBranchBound v eps)) with
    | true =>
      obtain ⟨d, h3, h4, h5⟩ := hd1 hs
      rcases key down d h3 (h5 ▸ hvd) with ⟨h6, h7⟩ | ⟨h6, h7⟩
      · exact .inl ⟨h6, by rw [h4, h7]⟩
      · exact .inr ⟨⟨_, by rw [h4, h6], cutoff_limit g⟩, h7.elim .inl fun h => .inr (.inl h)⟩
    | false =>
      refine .inr ⟨⟨_, (hd2 hs).1, cutoff_limit g⟩, .inr (.inr ?_)⟩
      intro p hpm
      rw [hp, hs] at hpm
      simp only [Bool.false_eq_true, if_false, List.nil_append] at hpm
      split at hpm
      · simp only [List.mem_singleton] at hpm; subst hpm; exact .inr rfl
      · simp at hpm
  · intro hvd
    cases hs : Dbl.le (.fin (upBranchBound v eps)) (Dbl.add g.lp.cols[col].upper (.fin (1 / 2))) with
    | true =>
      obtain ⟨d, h3, h4, h5⟩ := hu1 hs
      rcases key up d h3 (h5 ▸ hvd) with ⟨h6, h7⟩ | ⟨h6, h7⟩
      · exact .inl ⟨h6, by rw [h4, h7]⟩
      · exact .inr ⟨⟨_, by rw [h4, h6], cutoff_limit g⟩, h7.elim .inl fun h => .inr (.inl h)⟩
    | false =>
      refine .inr ⟨⟨_, (hu2 hs).1, cutoff_limit g⟩, .inr (.inr ?_)⟩
      intro p hpm
      rw [hp, hs] at hpm
      simp only [Bool.false_eq_true, if_false, List.append_nil] at hpm
      split at hpm
      · simp only [List.mem_singleton] at hpm; subst hpm; exact .inr rfl
      · simp at hpm

/-! ### C67: strong branching leaves the interface as it was -/

/-- A call of `SolveDownAndUpStrongBranch`. -/
structure BranchCall where
  col : Nat
  value : ℚ
  eps : ℚ
  iterationLimit : Int
  down : BranchAnswer
  up : BranchAnswer

/-- The calls, whatever they return. -/
def runBranchings (a : Accepts) : Interface → List BranchCall → Outcome Interface
  | g, [] => .ok g
  | g, c :: r => do
    let (g, _) ← solveDownAndUpStrongBranch a g c.col c.value c.eps c.iterationLimit c.down c.up
    runBranchings a g r

/-- `StartStrongBranching`, the calls, `EndStrongBranching`. -/
def session (a : Accepts) (g : Interface) (calls : List BranchCall) : Outcome Interface := do
  let g ← startStrongBranching g
  let g ← runBranchings a g calls
  endStrongBranching g

theorem runBranchings_same (a : Accepts) (g : Interface) (calls : List BranchCall)
    (hc : ∀ c ∈ calls, (c.col : Int) < getNumberOfColumns g) (hf : freed g = false)
    (ha : a.int .iterlimit g.settings.iterlimit = true) :
    ∃ g', runBranchings a g calls = .ok g' ∧ Same g g' ∧ g'.settings = g.settings := by
  induction calls generalizing g with
  | nil => exact ⟨g, rfl, Same.refl g, rfl⟩
  | cons c r ih =>
    have hcol : c.col < g.lp.cols.length := by
      simpa [getNumberOfColumns] using hc c (by simp)
    obtain ⟨g1, x, p, h1, h2, h3, -, -⟩ := branch_ok a g c.col _ (List.getElem?_eq_getElem hcol) hf
      c.value c.eps c.iterationLimit c.down c.up
    have h3 := h3 ha
    obtain ⟨g2, h4, h5, h6⟩ := ih g1
      (fun d hd => by
        have := hc d (by simp [hd])
        simpa [getNumberOfColumns, h2.lp] using this)
      (by rw [h2.freed]; exact hf) (by rw [h3]; exact ha)
    exact ⟨g2, by simp [runBranchings, h1, h4], h2.trans h5, h6.trans h3⟩

/-- **C67** (SoPlex).  A strong branching session on an LP with rows or columns, outside another
session, never aborts, and afterwards the LP, the basis, the parameters and `IsSolved` are what they
were and no session is open.  (The solution status of SoPlex after the session is not covered.) -/
theorem C67_session (a : Accepts) (g : Interface) (hf : freed g = true)
    (hne : 0 < getNumberOfRows g ∨ 0 < getNumberOfColumns g)
    (hcs : g.colStatus.length = g.lp.cols.length) (hrs : g.rowStatus.length = g.lp.rows.length)
    (ha : a.int .iterlimit g.settings.iterlimit = true) (calls : List BranchCall)
    (hc : ∀ c ∈ calls, (c.col : Int) < getNumberOfColumns g) :
    ∃ g', session a g calls = .ok g' ∧ g'.lp = g.lp ∧ g'.colStatus = g.colStatus ∧
      g'.rowStatus = g.rowStatus ∧ g'.settings = g.settings ∧ g'.isSolved = g.isSolved ∧
      freed g' = true := by
  have h0 : startStrongBranching g =
      .ok { g with savedRows := g.rowStatus, savedCols := g.colStatus } := by
    simp [startStrongBranching, hf, Outcome.check, hcs, hrs]
  have hf1 : freed { g with savedRows := g.rowStatus, savedCols := g.colStatus } = false := by
    simp only [getNumberOfRows, getNumberOfColumns] at hne
    simp only [freed, Bool.and_eq_false_iff, List.isEmpty_eq_false_iff, ← List.length_pos_iff]
    omega
  obtain ⟨g1, h1, h2, h3⟩ := runBranchings_same a
    { g with savedRows := g.rowStatus, savedCols := g.colStatus } calls hc hf1 ha
  have hf2 : freed g1 = false := by rw [h2.freed]; exact hf1
  refine ⟨{ restoreBasis g1 with savedRows := [], savedCols := [] }, ?_, h2.lp, h2.savedCols,
    h2.savedRows, h3, h2.solved, rfl⟩
  simp [session, h0, h1, endStrongBranching, hf2, Outcome.check]

example : freed solvedInterface = true ∧ 0 < getNumberOfRows solvedInterface ∧
    solvedInterface.colStatus.length = solvedInterface.lp.cols.length ∧
    solvedInterface.rowStatus.length = solvedInterface.lp.rows.length := by decide +kernel

/-- **C67** is violated by the empty LP: `EndStrongBranching` aborts, because the saved basis is
empty. -/
theorem C67_empty_lp_violated (a : Accepts) (g : Interface) (hf : freed g = true)
    (hr : getNumberOfRows g = 0) (hcl : getNumberOfColumns g = 0)
    (hcs : g.colStatus = []) (hrs : g.rowStatus = []) : session a g [] = .abort := by
  have h1 : g.lp.rows = [] := by simpa [getNumberOfRows] using hr
  have h2 : g.lp.cols = [] := by simpa [getNumberOfColumns] using hcl
  have h3 : startStrongBranching g = .ok { g with savedRows := [], savedCols := [] } := by
    simp [startStrongBranching, hf, Outcome.check, h1, h2, hcs, hrs]
  simp [session, h3, Outcome.check, runBranchings, endStrongBranching, freed]

/-! ### C47: IsSolved -/

/-- The calls of C47. -/
inductive Event where
  | modify (m : Modification)
  | solve (eps : ℚ) (clearThrows : Bool) (ans : Answer)
  | setBasis (cols rows : List LpBasisStatus) (throws : Bool) (s : Status) (b : BasisStatus)
  | clearState (throws : Bool)
  | read (path : String) (exists_ : Bool) (file : Option LinearProgram)
  | startBranching
  | branch (c : BranchCall)
  | endBranching

/-- What a client sees of a call: the LP was modified; a solve was called and returned OK or not; a
basis was loaded or cleared; none of these. -/
inductive Seen where
  | modified
  | solve (ok : Bool)
  | basis
  | other
  deriving DecidableEq

/-- One call. -/
def Event.call (a : Accepts) (g : Interface) : Event → Outcome (Interface × Seen)
  | .modify m => do return (← Soplex.call g m, .modified)
  | .solve eps t ans => do
    let (g, ok) ← soPlexSolve a g eps t ans
    return (g, .solve ok)
  | .setBasis c r t s b => do
    let (g, _) ← setBasisStatus g c r t s b
    return (g, .basis)
  | .clearState t => do
    let (g, _) ← Soplex.clearState g t
    return (g, .basis)
  | .read p e f => do
    let (g, ok) ← readLpFromFile g p e f
    return (g, if ok then .modified else .other)
  | .startBranching => do return (← startStrongBranching g, .other)
  | .branch c => do
    let (g, _) ← solveDownAndUpStrongBranch a g c.col c.value c.eps c.iterationLimit c.down c.up
    return (g, .other)
  | .endBranching => do return (← endStrongBranching g, .other)

/-- A sequence of calls. -/
def runEvents (a : Accepts) : Interface → List Event → Outcome (Interface × List Seen)
  | g, [] => .ok (g, [])
  | g, e :: r => do
    let (g, s) ← e.call a g
    let (g, l) ← runEvents a g r
    return (g, s :: l)

/-- Some solve was called and nothing was modified since. -/
def SolveCalledSinceModified (l : List Seen) : Prop :=
  ∃ ok before after, l = before ++ .solve ok :: after ∧ .modified ∉ after

theorem modify_unsolved {g g' : Interface} {m : Modification} (h : call g m = .ok g') :
    g'.isSolved = false := by
  cases m <;> simp only [call, addColumn, addColumns, addRow, addRows, deleteColumns, deleteRows,
    setColumnBounds, setRowSides, setObjectiveSense, setObjectiveCoefficient, clear] at h
  case addColumn =>
    obtain ⟨_, _, h⟩ := Outcome.bind_eq_ok.mp h
    have h := Outcome.ok.inj h; subst h; rfl
  case addColumns =>
    obtain ⟨_, _, h⟩ := Outcome.bind_eq_ok.mp h
    have h := Outcome.ok.inj h; subst h; rfl
  case addRow =>
    obtain ⟨_, _, h⟩ := Outcome.bind_eq_ok.mp h
    have h := Outcome.ok.inj h; subst h; rfl
  case addRows =>
    obtain ⟨_, _, h⟩ := Outcome.bind_eq_ok.mp h
    obtain ⟨_, _, h⟩ := Outcome.bind_eq_ok.mp h
    have h := Outcome.ok.inj h; subst h; rfl
  case deleteColumns =>
    obtain ⟨_, _, h⟩ := Outcome.bind_eq_ok.mp h
    obtain ⟨_, _, h⟩ := Outcome.bind_eq_ok.mp h
    have h := Outcome.ok.inj h; subst h; rfl
  case deleteRows =>
    obtain ⟨_, _, h⟩ := Outcome.bind_eq_ok.mp h
    obtain ⟨_, _, h⟩ := Outcome.bind_eq_ok.mp h
    have h := Outcome.ok.inj h; subst h; rfl
  case deleteRowSet mask =>
    obtain ⟨⟨g1, mp⟩, h1, h⟩ := Outcome.bind_eq_ok.mp h
    have h := Outcome.ok.inj h; subst h
    unfold deleteRowSet at h1
    obtain ⟨_, _, h1⟩ := Outcome.bind_eq_ok.mp h1
    obtain ⟨_, _, h1⟩ := Outcome.bind_eq_ok.mp h1
    obtain ⟨⟨_, _⟩, _, h1⟩ := Outcome.bind_eq_ok.mp h1
    have h1 := Outcome.ok.inj h1
    have h1 := congrArg Prod.fst h1
    simp only at h1
    subst h1; rfl
  case setColumnBounds =>
    obtain ⟨_, _, h⟩ := Outcome.bind_eq_ok.mp h
    obtain ⟨_, _, h⟩ := Outcome.bind_eq_ok.mp h
    obtain ⟨_, _, h⟩ := Outcome.bind_eq_ok.mp h
    have h := Outcome.ok.inj h; subst h; rfl
  case setRowSides =>
    obtain ⟨_, _, h⟩ := Outcome.bind_eq_ok.mp h
    split at h
    · have h := Outcome.ok.inj h; subst h; rfl
    · simp at h
  case setObjectiveSense =>
    obtain ⟨_, _, h⟩ := Outcome.bind_eq_ok.mp h
    have h := Outcome.ok.inj h; subst h; rfl
  case setObjectiveCoefficient =>
    obtain ⟨_, _, h⟩ := Outcome.bind_eq_ok.mp h
    split at h
    · have h := Outcome.ok.inj h; subst h; rfl
    · simp at h
  case clear =>
    obtain ⟨_, _, h⟩ := Outcome.bind_eq_ok.mp h
    have h := Outcome.ok.inj h; subst h; rfl

theorem lpSolve_ok {a : Accepts} {g g' : Interface} {eps : ℚ} {ans : Answer}
    (h : lpSolve a g eps ans = .ok g') :
    g'.lp = g.lp ∧ g'.settings = g.settings ∧ g'.status = ans.status := by
  unfold lpSolve at h
  obtain ⟨-, -, h⟩ := Outcome.bind_eq_ok.mp h
  dsimp only at h
  obtain ⟨-, -, h⟩ := Outcome.bind_eq_ok.mp h
  obtain ⟨-, -, h⟩ := Outcome.bind_eq_ok.mp h
  obtain ⟨-, -, h⟩ := Outcome.bind_eq_ok.mp h
  have h := Outcome.ok.inj h
  subst h
  refine ⟨rfl, ?_, rfl⟩
  dsimp only
  split <;> rfl

theorem solve_ok {a : Accepts} {g g' : Interface} {eps : ℚ} {t ok : Bool} {ans : Answer}
    (h : soPlexSolve a g eps t ans = .ok (g', ok)) :
    g'.lp = g.lp ∧ g'.settings = { g.settings with simplifier := false } ∧
    (ok = true → g'.isSolved = true ∧ g'.status = ans.status ∧ ans.status.isFine = true) := by
  unfold soPlexSolve at h
  dsimp only at h
  obtain ⟨-, -, h⟩ := Outcome.bind_eq_ok.mp h
  split at h
  · obtain ⟨-, -, h⟩ := Outcome.bind_eq_ok.mp h
    have h := Outcome.ok.inj h
    simp only [Prod.mk.injEq] at h
    obtain ⟨rfl, rfl⟩ := h
    exact ⟨rfl, rfl, by simp⟩
  · obtain ⟨g1, h1, h⟩ := Outcome.bind_eq_ok.mp h
    obtain ⟨h2, h3, h4⟩ := lpSolve_ok h1
    have h := Outcome.ok.inj h
    simp only [Prod.mk.injEq] at h
    obtain ⟨rfl, rfl⟩ := h
    refine ⟨?_, ?_, fun hok => ⟨rfl, h4, by rw [← h4]; exact hok⟩⟩
    · dsimp only; rw [h2]; split <;> rfl
    · dsimp only; rw [h3]; split <;> rfl

theorem branch_solved {a : Accepts} {g g' : Interface} {c : BranchCall}
    {r : Option BranchResult} {p : List (Dbl × Dbl)}
    (h : solveDownAndUpStrongBranch a g c.col c.value c.eps c.iterationLimit c.down c.up =
      .ok (g', r, p)) : g'.isSolved = g.isSolved := by
  have hset : ∀ (g : Interface) n, (setIterLimit a g n).isSolved = g.isSolved :=
    fun g n => (setIterLimit_same a g n).solved
  have hsb : ∀ {g g' : Interface} {o n : Dbl × Dbl} {i : Int} {b : BranchAnswer},
      solveBranch a g c.col o n i b = .ok g' → g'.isSolved = g.isSolved := by
    intro g g' o n i b h
    unfold solveBranch at h
    dsimp only at h
    obtain ⟨-, -, h⟩ := Outcome.bind_eq_ok.mp h
    have h := Outcome.ok.inj h
    subst h
    simp only [changeBounds, restoreBasis, hset]
  unfold solveDownAndUpStrongBranch at h
  dsimp only at h
  obtain ⟨c', -, h⟩ := Outcome.bind_eq_ok.mp h
  split at h
  · obtain ⟨g1, h1, h⟩ := Outcome.bind_eq_ok.mp h
    rw [← hsb h1]
    simp only [Outcome.bind_ok] at h
    split at h
    · have h := Outcome.ok.inj h
      simp only [Prod.mk.injEq] at h
      rw [← h.1, hset]
    · split at h
      · obtain ⟨g2, h2, h⟩ := Outcome.bind_eq_ok.mp h
        have h := Outcome.ok.inj h
        simp only [Prod.mk.injEq] at h
        rw [← h.1, hset, hsb h2]
      · have h := Outcome.ok.inj h
        simp only [Prod.mk.injEq] at h
        rw [← h.1, hset]
  · simp only [Outcome.bind_ok] at h
    split at h
    · obtain ⟨g2, h2, h⟩ := Outcome.bind_eq_ok.mp h
      have h := Outcome.ok.inj h
      simp only [Prod.mk.injEq] at h
      rw [← h.1, hset, hsb h2]
    · have h := Outcome.ok.inj h
      simp only [Prod.mk.injEq] at h
      rw [← h.1, hset]

theorem event_solved {a : Accepts} {g g' : Interface} {e : Event} {s : Seen}
    (h : e.call a g = .ok (g', s)) (hr : ∀ p x f, e ≠ .read p x f) :
    (s = .modified → g'.isSolved = false) ∧ (s = .other → g'.isSolved = g.isSolved) ∧
    (s = .basis → g'.isSolved = false) ∧ (s = .solve true → g'.isSolved = true) := by
  cases e with
  | modify m =>
    obtain ⟨g1, h1, h2⟩ := Outcome.bind_eq_ok.mp h
    have h2 := Outcome.ok.inj h2
    simp only [Prod.mk.injEq] at h2
    obtain ⟨rfl, rfl⟩ := h2
    simp [modify_unsolved h1]
  | solve eps t ans =>
    obtain ⟨⟨g1, ok⟩, h1, h2⟩ := Outcome.bind_eq_ok.mp h
    have h2 := Outcome.ok.inj h2
    simp only [Prod.mk.injEq] at h2
    obtain ⟨rfl, rfl⟩ := h2
    refine ⟨by simp, by simp, by simp, fun hs => ?_⟩
    simp only [Seen.solve.injEq] at hs
    exact ((solve_ok h1).2.2 hs).1
  | setBasis c r t st b =>
    obtain ⟨⟨g1, ok⟩, h1, h2⟩ := Outcome.bind_eq_ok.mp h
    have h2 := Outcome.ok.inj h2
    simp only [Prod.mk.injEq] at h2
    obtain ⟨rfl, rfl⟩ := h2
    refine ⟨by simp, by simp, fun _ => ?_, by simp⟩
    unfold setBasisStatus at h1
    obtain ⟨_, _, h1⟩ := Outcome.bind_eq_ok.mp h1
    obtain ⟨_, _, h1⟩ := Outcome.bind_eq_ok.mp h1
    obtain ⟨_, _, h1⟩ := Outcome.bind_eq_ok.mp h1
    dsimp only at h1
    split at h1
    · have h1 := congrArg Prod.fst (Outcome.ok.inj h1)
      simp only at h1
      subst h1; rfl
    · split at h1
      · have h1 := congrArg Prod.fst (Outcome.ok.inj h1)
        simp only at h1
        subst h1; rfl
      · have h1 := congrArg Prod.fst (Outcome.ok.inj h1)
        simp only at h1
        subst h1; rfl
  | clearState t =>
    obtain ⟨⟨g1, ok⟩, h1, h2⟩ := Outcome.bind_eq_ok.mp h
    have h2 := Outcome.ok.inj h2
    simp only [Prod.mk.injEq] at h2
    obtain ⟨rfl, rfl⟩ := h2
    refine ⟨by simp, by simp, fun _ => ?_, by simp⟩
    unfold Soplex.clearState at h1
    dsimp only at h1
    split at h1
    · obtain ⟨-, -, h1⟩ := Outcome.bind_eq_ok.mp h1
      have h1 := congrArg Prod.fst (Outcome.ok.inj h1)
      simp only at h1
      subst h1; rfl
    · have h1 := congrArg Prod.fst (Outcome.ok.inj h1)
      simp only at h1
      subst h1; rfl
  | read p x f => exact absurd rfl (hr p x f)
  | startBranching =>
    obtain ⟨g1, h1, h2⟩ := Outcome.bind_eq_ok.mp h
    have h2 := Outcome.ok.inj h2
    simp only [Prod.mk.injEq] at h2
    obtain ⟨rfl, rfl⟩ := h2
    unfold startStrongBranching at h1
    obtain ⟨-, -, h1⟩ := Outcome.bind_eq_ok.mp h1
    have h1 := Outcome.ok.inj h1
    subst h1; simp
  | branch c =>
    obtain ⟨⟨g1, r, p⟩, h1, h2⟩ := Outcome.bind_eq_ok.mp h
    have h2 := Outcome.ok.inj h2
    simp only [Prod.mk.injEq] at h2
    obtain ⟨rfl, rfl⟩ := h2
    simp [branch_solved h1]
  | endBranching =>
    obtain ⟨g1, h1, h2⟩ := Outcome.bind_eq_ok.mp h
    have h2 := Outcome.ok.inj h2
    simp only [Prod.mk.injEq] at h2
    obtain ⟨rfl, rfl⟩ := h2
    unfold endStrongBranching at h1
    obtain ⟨-, -, h1⟩ := Outcome.bind_eq_ok.mp h1
    have h1 := Outcome.ok.inj h1
    subst h1; simp [restoreBasis]

theorem runEvents_solved {a : Accepts} {g g' : Interface} {es : List Event} {l : List Seen}
    (h : runEvents a g es = .ok (g', l)) (hr : ∀ e ∈ es, ∀ p x f, e ≠ .read p x f) :
    (g'.isSolved = true → SolveCalledSinceModified l ∨ (g.isSolved = true ∧ .modified ∉ l)) ∧
    (.solve false ∉ l → .basis ∉ l →
      (SolveCalledSinceModified l ∨ (g.isSolved = true ∧ .modified ∉ l)) →
      g'.isSolved = true) := by
  induction es generalizing g l with
  | nil =>
    have h := Outcome.ok.inj h
    simp only [Prod.mk.injEq] at h
    obtain ⟨rfl, rfl⟩ := h
    refine ⟨fun h => .inr ⟨h, by simp⟩, fun _ _ h => ?_⟩
    rcases h with ⟨ok, b, a, h, -⟩ | h
    · simp at h
    · exact h.1
  | cons e r ih =>
    obtain ⟨⟨g1, s⟩, h1, h⟩ := Outcome.bind_eq_ok.mp h
    obtain ⟨⟨g2, l2⟩, h2, h⟩ := Outcome.bind_eq_ok.mp h
    have h := Outcome.ok.inj h
    simp only [Prod.mk.injEq] at h
    obtain ⟨rfl, rfl⟩ := h
    obtain ⟨ih1, ih2⟩ := ih h2 (fun e he => hr e (by simp [he]))
    obtain ⟨e1, e2, e3, e4⟩ := event_solved h1 (hr e (by simp))
    constructor
    · intro hs
      rcases ih1 hs with ⟨ok, b, a, rfl, ha⟩ | ⟨hg, hm⟩
      · exact .inl ⟨ok, s :: b, a, rfl, ha⟩
      · cases s with
        | modified => simp [e1 rfl] at hg
        | other => exact .inr ⟨by simpa [e2 rfl] using hg, by simp [hm]⟩
        | basis => simp [e3 rfl] at hg
        | solve ok => exact .inl ⟨ok, [], l2, rfl, hm⟩
    · intro hf hb hs
      have hf2 : Seen.solve false ∉ l2 := fun hc => hf (by simp [hc])
      have hb2 : Seen.basis ∉ l2 := fun hc => hb (by simp [hc])
      apply ih2 hf2 hb2
      rcases hs with ⟨ok, b, a, hl, ha⟩ | ⟨hg, hm⟩
      · cases b with
        | nil =>
          simp only [List.nil_append, List.cons.injEq] at hl
          obtain ⟨rfl, rfl⟩ := hl
          cases ok with
          | false => simp at hf
          | true => exact .inr ⟨e4 rfl, ha⟩
        | cons x b =>
          simp only [List.cons_append, List.cons.injEq] at hl
          exact .inl ⟨ok, b, a, hl.2, ha⟩
      · have hm2 : Seen.modified ∉ l2 := fun hc => hm (by simp [hc])
        cases s with
        | modified => simp at hm
        | other => exact .inr ⟨by simpa [e2 rfl] using hg, hm2⟩
        | basis => simp at hb
        | solve ok =>
          cases ok
          · simp at hf
          · exact .inr ⟨e4 rfl, hm2⟩

/-- **C47** (SoPlex), partial: what is missing are reads from a file
(`C47_read_keeps_solved_violated`) and, for the converse, loading or clearing a basis
(`C47_load_basis_violated`) and solves that fail.  After any calls on a new interface, including
strong branching, `IsSolved` implies that a solve was called and nothing was modified since; the
converse holds if no solve failed and no basis was loaded or cleared. -/
theorem C47_is_solved_partial {a : Accepts} {g g' : Interface} {es : List Event} {l : List Seen}
    (h0 : g.isSolved = false) (h : runEvents a g es = .ok (g', l))
    (hr : ∀ e ∈ es, ∀ p x f, e ≠ .read p x f) :
    (g'.isSolved = true → SolveCalledSinceModified l) ∧
    (.solve false ∉ l → .basis ∉ l → SolveCalledSinceModified l → g'.isSolved = true) := by
  obtain ⟨h1, h2⟩ := runEvents_solved h hr
  refine ⟨fun hs => ?_, fun hf hb hs => h2 hf hb (.inl hs)⟩
  rcases h1 hs with h | ⟨h, -⟩
  · exact h
  · rw [h0] at h; exact absurd h (by simp)

/-- An answer of `optimize`. -/
def goodAnswer : Answer := ⟨false, .optimal, .optimal, 4, 1, [.basic, .onUpper], [.fixed]⟩

/-- A new interface. -/
def newInterface : Interface := { settings := someSettings }

example : (match runEvents acceptEvery newInterface
    [.modify (.addRow ⟨⟨[], false⟩, .fin 0, .fin 1, ""⟩),
     .modify (.addColumn ⟨⟨[⟨0, 1⟩], false⟩, .fin 0, .fin 1, 1, "x"⟩),
     .solve (1 / 10 ^ 6) false ⟨false, .optimal, .optimal, 4, 1, [.basic], [.fixed]⟩,
     .startBranching, .branch ⟨0, 1 / 2, 0, 5, branchOptimal 1, branchInfeasible⟩,
     .endBranching] with
    | .ok (g, l) => g.isSolved &&
      decide (l = [.modified, .modified, .solve true, .other, .other, .other])
    | _ => false) = true := by decide +kernel

/-- **C47** is violated by `ReadLpFromFile`: after a solve and a successful read of another LP the
interface still claims to be solved. -/
theorem C47_read_keeps_solved_violated (lp : LinearProgram) :
    ∃ g, runEvents acceptEvery newInterface [.solve 0 false goodAnswer, .read "a.lp" true (some lp)] =
      .ok (g, [.solve true, .modified]) ∧ g.lp = lp ∧ g.isSolved = true ∧
      ¬ SolveCalledSinceModified [.solve true, .modified] := by
  refine ⟨_, rfl, rfl, rfl, ?_⟩
  rintro ⟨ok, b, a, h, ha⟩
  cases b with
  | nil => simp at h; obtain ⟨-, rfl⟩ := h; simp at ha
  | cons x b => cases b with
    | nil => simp at h
    | cons y b => simp at h

/-- **C47** is violated by loading a basis: nothing was modified since the solve, yet `IsSolved` is
false. -/
theorem C47_load_basis_violated :
    ∃ g, runEvents acceptEvery newInterface [.solve 0 false goodAnswer,
      .setBasis [] [] false .regular .regular] = .ok (g, [.solve true, .basis]) ∧
      g.lp = newInterface.lp ∧ g.isSolved = false := ⟨_, rfl, rfl, rfl⟩

/-! ### C64: solving keeps the parameters -/

/-- **C64** (SoPlex), partial: what is missing is presolving (`C64_presolve_lost_violated`).  A
solve, whatever it returns, leaves all other parameters as they were. -/
theorem C64_solve_keeps_parameters_partial {a : Accepts} {g g' : Interface} {eps : ℚ} {t ok : Bool}
    {ans : Answer} (h : soPlexSolve a g eps t ans = .ok (g', ok)) :
    getLpParameters g'.settings = { getLpParameters g.settings with usePresolve := false } := by
  rw [(solve_ok h).2.1]
  unfold getLpParameters
  cases g.settings.timer <;> rfl

example : (match soPlexSolve acceptEvery solvedInterface 0 false goodAnswer with
    | .ok (_, ok) => ok
    | _ => false) = true := by decide +kernel

/-- **C64** is violated by every solve of an interface that presolves: presolving is off for good. -/
theorem C64_presolve_lost_violated {a : Accepts} {g g' : Interface} {eps : ℚ} {t ok : Bool}
    {ans : Answer} (hp : (getLpParameters g.settings).usePresolve = true)
    (h : soPlexSolve a g eps t ans = .ok (g', ok)) :
    getLpParameters g'.settings ≠ getLpParameters g.settings := by
  rw [C64_solve_keeps_parameters_partial h]
  intro hc
  have := congrArg LpParameters.usePresolve hc
  rw [hp] at this
  simp at this

example : (getLpParameters solvedInterface.settings).usePresolve = true := rfl

/-! ### C68: the status queries -/

/-- **C68** (SoPlex).  In every state the status queries return, at most one of `IsOptimal`,
`IsPrimalInfeasible`, `IsPrimalUnbounded` is true, and `IsOptimal` does not abort. -/
theorem C68_status_queries (g : Interface) :
    ∃ o, isOptimal g = .ok o ∧
      ¬ (o = true ∧ isPrimalInfeasible g = true) ∧ ¬ (o = true ∧ isPrimalUnbounded g = true) ∧
      ¬ (isPrimalInfeasible g = true ∧ isPrimalUnbounded g = true) := by
  refine ⟨decide (g.status = .optimal), ?_, ?_, ?_, ?_⟩
  · cases hb : g.basisStatus <;>
      simp [isOptimal, isPrimalFeasible, isDualFeasible, hb, Outcome.check]
  · simp [isPrimalInfeasible]; intro h; simp [h]
  · simp [isPrimalUnbounded]; intro h; simp [h]
  · simp [isPrimalInfeasible, isPrimalUnbounded]; intro h; simp [h]

/-! ### C57: WriteLpToFile -/

/-- **C57** (SoPlex).  For a path that is not empty the result is the path if the file was written
and an error otherwise. -/
theorem C57_write (path : String) (hp : path ≠ "") (written : Option Bool) :
    (written = some true → writeLpToFile path written = .ok path) ∧
    (written ≠ some true → ∃ msg, writeLpToFile path written = .error msg) := by
  constructor
  · rintro rfl; simp [writeLpToFile, hp, Outcome.check]
  · intro h
    match written, h with
    | none, _ => exact ⟨_, by simp [writeLpToFile, hp, Outcome.check]; rfl⟩
    | some false, _ => exact ⟨_, by simp [writeLpToFile, hp, Outcome.check]; rfl⟩

/-- An empty path aborts. -/
theorem C57_empty_path_violated (written : Option Bool) : writeLpToFile "" written = .abort := by
  simp [writeLpToFile, Outcome.check]

end Soplex
end MiniMip
