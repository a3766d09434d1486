import Verif.Lemmas.SolverGuard
import Verif.Lemmas.LinearProgram
import Verif.Model.Program
import Verif.Props.Setup

/-!
# The whole program: what its calls keep
-/

namespace MiniMip

/-! ### The cut runner -/

namespace Runner

variable {W : Type}

/-- Generators and selector only read. -/
structure ReadsOnly (pl : Plugins W) : Prop where
  generators : ∀ g ∈ pl.generators, ∀ w reg w' cuts, g w reg = .ok (w', cuts) → w' = w
  select : ∀ w reg l w' cuts, pl.select w reg l = .ok (w', cuts) → w' = w

theorem addAll_world (l : List CutData) : ∀ (r r' : Runner W) (is : List Int),
    addAll r l = .ok (r', is) → r'.world = r.world := by
  induction l with
  | nil => intro r r' is h; cases h; rfl
  | cons c cs ih =>
    intro r r' is h
    unfold addAll at h
    simp only [Outcome.bind_eq_ok] at h
    obtain ⟨⟨reg, i⟩, -, ⟨r1, is1⟩, h1, h2⟩ := h
    cases h2
    exact (ih _ _ _ h1).trans rfl

theorem generate_world {pl : Plugins W} (hp : ReadsOnly pl) :
    ∀ (gs : List (W → CutRegistry → Outcome (W × List CutData))),
      (∀ g ∈ gs, g ∈ pl.generators) → ∀ (r r' : Runner W) (is : List Int),
      generate pl r gs = .ok (r', is) → r'.world = r.world := by
  intro gs
  induction gs with
  | nil => intro _ r r' is h; cases h; rfl
  | cons g gs ih =>
    intro hgs r r' is h
    unfold generate at h
    simp only [Outcome.bind_eq_ok] at h
    obtain ⟨⟨w, cuts⟩, hg, h⟩ := h
    have hw := hp.generators g (hgs g (by simp)) _ _ _ _ hg
    dsimp only at h
    split at h
    · have := ih (fun g hg => hgs g (by simp [hg])) _ _ _ h
      rw [this]; exact hw
    · simp only [Outcome.bind_eq_ok] at h
      obtain ⟨⟨w2, fl⟩, hs, ⟨r2, is2⟩, ha, ⟨r3, is3⟩, h3, h4⟩ := h
      cases h4
      have h5 := ih (fun g hg => hgs g (by simp [hg])) _ _ _ h3
      have h6 := addAll_world _ _ _ _ ha
      have h7 := hp.select _ _ _ _ _ hs
      rw [h5, h6, h7]; exact hw

theorem addRows_keeps {pl : Plugins W} {I : W → Prop}
    (hadd : ∀ w row w', I w → pl.addRow w row = .ok w' → I w') (is : List Int) :
    ∀ (r r' : Runner W), addRows pl r is = .ok r' → I r.world → I r'.world := by
  induction is with
  | nil => intro r r' h hi; cases h; exact hi
  | cons i is ih =>
    intro r r' h hi
    unfold addRows at h
    simp only [Outcome.bind_eq_ok] at h
    obtain ⟨c, -, w, hw, h⟩ := h
    exact ih _ _ h (hadd _ _ _ hi hw)

/-- What separation keeps: an invariant `I` of adding rows and solving, and a property `A` every solve
establishes. -/
theorem separateFuel_keeps {p : RunnerParams} {pl : Plugins W} (hp : ReadsOnly pl) {I A : W → Prop}
    (hadd : ∀ w row w', I w → pl.addRow w row = .ok w' → I w')
    (hsolve : ∀ w w', I w → pl.solve w = .ok w' → I w' ∧ A w') (n : Nat) :
    ∀ (r r' : Runner W), separateFuel p pl n r = some (.ok r') → I r.world → A r.world →
      I r'.world ∧ A r'.world := by
  induction n with
  | zero => intro r r' h; cases h
  | succ n ih =>
    intro r r' h hi ha
    unfold separateFuel at h
    split at h
    · cases hr : round pl r with
      | ok x =>
        obtain ⟨r1, b⟩ := x
        rw [hr] at h
        unfold round at hr
        simp only [Outcome.bind_eq_ok] at hr
        obtain ⟨⟨r2, is⟩, hg, hr⟩ := hr
        have hw := generate_world hp pl.generators (fun _ h => h) _ _ _ hg
        dsimp only at hr
        split at hr
        · cases hr
          cases h
          rw [hw]; exact ⟨hi, ha⟩
        · simp only [Outcome.bind_eq_ok] at hr
          obtain ⟨r3, h3, w, h4, h5⟩ := hr
          cases h5
          have := hsolve _ _ (addRows_keeps hadd is _ _ h3 (by rw [hw]; exact hi)) h4
          exact ih _ _ h this.1 this.2
      | _ => rw [hr] at h; cases h
    · cases h; exact ⟨hi, ha⟩

end Runner

namespace Program

open Glop (LinearProgram Extends)

/-- The point the LP code reports. -/
def Report.point (r : Report) : Int → ℚ := fun j => (r.primal.getD fun _ => 0) j.toNat

/-- The bounds of the columns of the LP. -/
def bounds (r : Runner World) (j : Int) : Dbl × Dbl :=
  if 0 ≤ j then (r.world.lp.program.cols[j.toNat]?.map fun c => (c.lower, c.upper)).getD (.nan, .nan)
  else (.nan, .nan)

/-- The left-hand side of a cut is taken for minus infinity. -/
theorem readLhs_neg (e : Engine) (l : Lp) : readLhs (l.infinity e) (l.infinity e).neg = .ninf := by
  cases l <;> simp [readLhs, Lp.infinity, Dbl.neg, Dbl.le]

theorem readsOnly (e : Engine) (c : Setup.Created) : Runner.ReadsOnly (plugins e c) := by
  constructor
  · intro g hg w reg w' cuts h
    simp only [plugins, List.mem_map] at hg
    obtain ⟨gc, -, rfl⟩ := hg
    simp only [Outcome.bind_eq_ok] at h
    obtain ⟨l, -, h⟩ := h
    cases h; rfl
  · intro w reg l w' cuts h
    simp only [plugins, Outcome.bind_eq_ok] at h
    obtain ⟨l, -, h⟩ := h
    cases h; rfl

theorem setColumnBounds_program {l l' : Lp} {col : Int} {lower upper : Dbl}
    (h : l.setColumnBounds col lower upper = .ok l') :
    0 ≤ col ∧ col < l.program.cols.length ∧ l'.program = l.program.withBounds col.toNat lower upper := by
  cases l with
  | glop s =>
    simp only [Lp.setColumnBounds, Outcome.bind_eq_ok] at h
    obtain ⟨g, hg, h⟩ := h
    unfold Glop.setColumnBounds at hg
    split at hg
    · rename_i hc
      cases hg; cases h
      exact ⟨hc.1, hc.2, rfl⟩
    · cases hg
  | soplex g =>
    simp only [Lp.setColumnBounds, Outcome.bind_eq_ok, Soplex.setColumnBounds, Outcome.check_eq_ok,
      decide_eq_true_eq] at h
    obtain ⟨g', ⟨_, -, _, h1, _, h2, hg⟩, h⟩ := h
    cases hg; cases h
    exact ⟨h1, h2, rfl⟩

theorem addRow_program {l l' : Lp} {r : LpRow} (h : l.addRow r = .ok l') :
    ∃ name, Glop.setRow l.program.rows.length
      { l.program with rows := l.program.rows ++ [⟨r.lhs, r.rhs, name⟩] } r.row.entries =
        .ok l'.program := by
  cases l with
  | glop s =>
    simp only [Lp.addRow, Outcome.bind_eq_ok, Glop.addRow] at h
    obtain ⟨g, ⟨lp, hg, h1⟩, h⟩ := h
    cases h1; cases h
    exact ⟨r.name, hg⟩
  | soplex g =>
    simp only [Lp.addRow, Outcome.bind_eq_ok, Soplex.addRow] at h
    obtain ⟨g, ⟨lp, hg, h1⟩, h⟩ := h
    cases h1; cases h
    exact ⟨"", hg⟩

theorem solveInternal_lp (n : Nat) : ∀ (rec : Bool) (g : Glop.Interface) (answers : Nat → Glop.Answer),
    (Glop.solveInternal n rec g answers).1.lp = g.lp := by
  induction n with
  | zero => intros; rfl
  | succ n ih =>
    intro rec g answers
    unfold Glop.solveInternal
    cases rec <;> simp only [Bool.false_eq_true, if_false, if_true] <;> (repeat' split) <;>
      first | rfl | exact ih _ _ _

/-- What a solve that returns changes. -/
theorem solve_world {e : Engine} {w w' : World} (h : w.solve e = .ok w') :
    w'.lp.program = w.lp.program ∧ w'.draws = w.draws ∧ w'.solves = w.solves + 1 ∧
    (match w.lp with
      | .glop s => w'.report = (e.glop w.solves s).2.2.2 ∧
          (w'.lp.isOptimal = true ↔ (e.glop w.solves s).2.1 = .optimal)
      | .soplex g => w'.report = (e.soplex w.solves g).2.2 ∧
          (w'.lp.isOptimal = true ↔ (e.soplex w.solves g).2.1.status = .optimal)) := by
  unfold World.solve at h
  split at h
  · rename_i s hs
    dsimp only at h
    split at h
    · cases h
      rw [hs]
      refine ⟨?_, rfl, rfl, rfl, ?_⟩
      · exact solveInternal_lp 2 false s.iface _
      · simp only [Lp.isOptimal, Glop.Session.isOptimal, Glop.Session.solveLp]; exact decide_eq_true_iff
    · cases h
  · rename_i g hs
    simp only [Outcome.bind_eq_ok] at h
    obtain ⟨⟨g', ok⟩, hg, h⟩ := h
    dsimp only at h
    split at h
    · rename_i hok
      cases h
      rw [hs]
      unfold Soplex.soPlexSolve at hg
      simp only [Outcome.bind_eq_ok, Outcome.check_eq_ok] at hg
      obtain ⟨_, -, hg⟩ := hg
      split at hg
      · simp only [Outcome.bind_eq_ok] at hg
        obtain ⟨_, -, hg⟩ := hg
        cases hg
        cases hok
      · simp only [Outcome.bind_eq_ok] at hg
        obtain ⟨g2, hl, hg⟩ := hg
        cases hg
        simp only [Soplex.lpSolve, Outcome.bind_eq_ok] at hl
        obtain ⟨_, -, _, -, _, -, _, -, hl⟩ := hl
        cases hl
        refine ⟨?_, rfl, rfl, rfl, ?_⟩
        · simp only [Lp.program]
          split <;> rfl
        · simp [Lp.isOptimal]
    · cases h

end Program
end MiniMip
