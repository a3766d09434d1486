import Verif.Props.GeneratorWitness
import Verif.Props.Setup
import Verif.Model.IeeeGenerator

/-!
# Property C34: exactly when the generator reads integrality data out of range
-/

namespace MiniMip
namespace Generator

/-- Row `k` of the tableau is one the generator looks at, and it combines a row of the LP that `MipData` does not have: the
basic variable is an integer variable with a fractional value, and the row of the inverse has a non-zero on such a row. -/
def Foreign (c : GenContext) (s : SolverView) (optimum : SparseVector) (k : Nat) : Prop :=
  ∃ col b e, s.basis[k]? = some (some col) ∧ c.isInteger col = true ∧ (∀ n : ℤ, c.tol < |optimum.value col - n|) ∧
    s.bInverted k = .ok b ∧ e ∈ b.entries ∧ (c.integralRow.length : Int) ≤ e.index

/-- Every column has a bound. -/
def NoFreeColumn (lp : LpView) : Prop :=
  ∀ (j : Nat) (l x : Dbl), lp.lower[j]? = some l → lp.upper[j]? = some x →
    lp.isInfinity l.neg = false ∨ lp.isInfinity x = false

/-- A call that returns or reads out of range. -/
def OkOrUb {α : Type} (x : Outcome α) : Prop := (∃ a, x = .ok a) ∨ x = .ub

theorem OkOrUb.bind {α β : Type} {x : Outcome α} {f : α → Outcome β} (hx : OkOrUb x) (hf : ∀ a, x = .ok a → OkOrUb (f a)) :
    OkOrUb (x >>= f) := by
  rcases hx with ⟨a, rfl⟩ | rfl
  · exact hf a rfl
  · exact .inr rfl

theorem listAt_okOrUb {α : Type} (l : List α) (i : Int) : OkOrUb (listAt l i) := by
  unfold listAt
  split
  · exact .inr rfl
  · split
    · exact .inl ⟨_, rfl⟩
    · exact .inr rfl

theorem listAt_beyond {α : Type} (l : List α) (i : Int) (h : (l.length : Int) ≤ i) : listAt l i = .ub := by
  unfold listAt
  have : l[i.toNat]? = none := List.getElem?_eq_none (by omega)
  split
  · rfl
  · rw [this]

theorem readFlags_okOrUb (c : GenContext) (l : List Entry) : OkOrUb (readFlags c l) := by
  induction l with
  | nil => exact .inl ⟨_, rfl⟩
  | cons e l ih => exact (listAt_okOrUb _ _).bind fun _ _ => ih

theorem transformM_okOrUb {f : Int → ℚ → Outcome ℚ} (hf : ∀ i x, OkOrUb (f i x)) (l : List Entry) :
    OkOrUb (transformM f l) := by
  induction l with
  | nil => exact .inl ⟨_, rfl⟩
  | cons e l ih => exact (hf _ _).bind fun _ _ => ih.bind fun _ _ => .inl ⟨_, rfl⟩

theorem readFlags_ub (c : GenContext) (l : List Entry) (h : ∃ e ∈ l, (c.integralRow.length : Int) ≤ e.index) :
    readFlags c l = .ub := by
  induction l with
  | nil => obtain ⟨e, he, -⟩ := h; cases he
  | cons e l ih =>
    obtain ⟨d, hd, hi⟩ := h
    rcases List.mem_cons.1 hd with rfl | hd
    · simp only [readFlags, hasIntegralSlack, listAt_beyond _ _ hi, Outcome.bind_ub]
    · simp only [readFlags, ih ⟨d, hd, hi⟩]
      rcases listAt_okOrUb c.integralRow e.index with ⟨x, hx⟩ | hx <;> simp [hasIntegralSlack, hx]

theorem transformM_ub {f : Int → ℚ → Outcome ℚ} (hf : ∀ i x, OkOrUb (f i x)) (l : List Entry)
    (h : ∃ e ∈ l, f e.index e.value = .ub) : transformM f l = .ub := by
  induction l with
  | nil => obtain ⟨e, he, -⟩ := h; cases he
  | cons e l ih =>
    obtain ⟨d, hd, hi⟩ := h
    rcases List.mem_cons.1 hd with rfl | hd
    · simp only [transformM, hi, Outcome.bind_ub]
    · simp only [transformM, ih ⟨d, hd, hi⟩]
      rcases hf e.index e.value with ⟨x, hx⟩ | hx <;> simp [hx]

theorem round_okOrUb (c : GenContext) (a : AggRow) (r : Rounder) : OkOrUb (r.round c a) := by
  have hslack : ∀ (g : Bool → ℚ → ℚ), ∀ (i : Int) (x : ℚ), OkOrUb (do
      let f ← hasIntegralSlack c i
      return g f x : Outcome ℚ) := fun g i x => (listAt_okOrUb _ _).bind fun _ _ => .inl ⟨_, rfl⟩
  cases r with
  | mir =>
    simp only [Rounder.round, mirRound]
    split
    · exact (readFlags_okOrUb _ _).bind fun _ _ => .inl ⟨_, rfl⟩
    · exact (transformM_okOrUb (hslack _) _).bind fun _ _ => .inl ⟨_, rfl⟩
  | strongCG =>
    have hall : ∀ l, OkOrUb (slacksAllowCG c l) := by
      intro l
      induction l with
      | nil => exact .inl ⟨_, rfl⟩
      | cons e l ih =>
        refine (listAt_okOrUb _ _).bind fun i _ => ?_
        split
        · exact ih
        · exact .inl ⟨_, rfl⟩
    refine (hall _).bind fun ok _ => ?_
    dsimp only
    split
    · exact .inl ⟨_, rfl⟩
    · split
      · exact .inl ⟨_, rfl⟩
      · split
        · exact .inl ⟨_, rfl⟩
        · split
          · exact .inl ⟨_, rfl⟩
          · exact (transformM_okOrUb (hslack _) _).bind fun _ _ => .inl ⟨_, rfl⟩

theorem mir_ub (c : GenContext) (a : AggRow)
    (h : ∃ e ∈ a.slackCoefs.entries, (c.integralRow.length : Int) ≤ e.index) : Rounder.mir.round c a = .ub := by
  simp only [Rounder.round, mirRound]
  split
  · rw [readFlags_ub c _ h]
    rfl
  · rename_i b hb
    obtain ⟨e, he, hi⟩ := h
    have := transformM_ub (f := fun row x => do
        let i ← hasIntegralSlack c row
        return if i then mirRoundInteger c.tol x (fractionality c.tol b)
          else mirRoundContinuous x (fractionality c.tol b))
      (fun i x => (listAt_okOrUb _ _).bind fun _ _ => .inl ⟨_, rfl⟩) a.slackCoefs.entries
      ⟨e, he, by simp only [hasIntegralSlack, listAt_beyond _ _ hi, Outcome.bind_ub]⟩
    simp only [Outcome.pure_eq] at this
    simp only [this, Outcome.bind_ub, Outcome.pure_eq]

theorem roundAll_okOrUb {c : GenContext} {o : SparseVector} {a : AggRow} (h : ∀ r, OkOrUb (roundOne c a r))
    (rs : List Rounder) (t : Nat) : OkOrUb (roundAll c o a t rs) := by
  induction rs generalizing t with
  | nil => exact .inl ⟨_, rfl⟩
  | cons r rs ih =>
    refine (h r).bind fun res _ => ?_
    cases res with
    | none => exact ih t
    | some p =>
      dsimp only
      split
      · exact (ih _).bind fun _ _ => .inl ⟨_, rfl⟩
      · exact ih t

theorem roundAll_ub {c : GenContext} {o : SparseVector} {a : AggRow} (h : ∀ r, OkOrUb (roundOne c a r)) {r : Rounder}
    (hu : roundOne c a r = .ub) (rs : List Rounder) (hr : r ∈ rs) (t : Nat) : roundAll c o a t rs = .ub := by
  induction rs generalizing t with
  | nil => cases hr
  | cons q rs ih =>
    by_cases hq : r ∈ rs
    · simp only [roundAll]
      rcases h q with ⟨res, hres⟩ | hres
      · rw [hres]
        cases res with
        | none => exact ih hq t
        | some p =>
          simp only [Outcome.bind_ok]
          split
          · rw [ih hq]; rfl
          · exact ih hq t
      · rw [hres]; rfl
    · rcases List.mem_cons.1 hr with rfl | hr
      · simp only [roundAll, hu, Outcome.bind_ub]
      · exact absurd hr hq

theorem roundOne_okOrUb {c : GenContext} {s : SolverView} (hr : RowsClean c.lp) (hs : Consistent c s)
    {u : List Bool} {b : SparseVector} {a a' : AggRow} (hb : b.Good)
    (hbi : ∀ e ∈ b.entries, e.index < c.lp.rows.length) (ha : aggregateByWeight c.lp b u = .ok a)
    (ht : toNonNegative c.lp a = .ok (a', true)) (r : Rounder) : OkOrUb (roundOne c a' r) := by
  rcases round_okOrUb c a' r with ⟨res, hres⟩ | hres
  · exact .inl (roundOne_of_round hr hs hb hbi ha ht hres)
  · exact .inr (by rw [roundOne, hres]; rfl)

theorem not_free {lp : LpView} (h : NoFreeColumn lp) (j : Int) : (shiftAt lp j).isFree = false := by
  unfold shiftAt
  cases hj : shiftOf lp j with
  | error m => rfl
  | abort => rfl
  | ub => rfl
  | ok t =>
    change t.isFree = false
    unfold shiftOf at hj
    obtain ⟨l, hl, hj⟩ := Outcome.bind_eq_ok.1 hj
    obtain ⟨x, hx, hj⟩ := Outcome.bind_eq_ok.1 hj
    have := h j.toNat l x (listAt_eq_ok.1 hl).2 (listAt_eq_ok.1 hx).2
    have hj := Outcome.ok.inj hj
    subst hj
    split
    · rfl
    · split
      · split <;> rfl
      · split
        · split <;> rfl
        · simp_all

/-- What one row of the tableau gives. -/
theorem tableauRow_cases {c : GenContext} {s : SolverView} (hr : RowsClean c.lp) (hs : Consistent c s) {u : List Bool}
    (hu : u.length = c.lp.rows.length) (rs : List Rounder) (o : SparseVector) (k : Nat) (hk : k < c.lp.rows.length) :
    OkOrUb (tableauRow c s rs u o k) ∧
      (¬ Foreign c s o k → ∃ cuts, tableauRow c s rs u o k = .ok cuts) ∧
      (Foreign c s o k → .mir ∈ rs → NoFreeColumn c.lp → tableauRow c s rs u o k = .ub) := by
  obtain ⟨basic, hbasic, hb2⟩ := listAt_of_lt (l := s.basis) (i := (k : Int)) (by omega) (by rw [hs.basis]; omega)
  rw [Int.toNat_natCast] at hb2
  have hnot : ∀ {P : Prop} {l : List CutData}, tableauRow c s rs u o k = .ok l → (Foreign c s o k → P) →
      OkOrUb (tableauRow c s rs u o k) ∧ (¬ Foreign c s o k → ∃ cuts, tableauRow c s rs u o k = .ok cuts) ∧
      (Foreign c s o k → P) := fun h hp => ⟨.inl ⟨_, h⟩, fun _ => ⟨_, h⟩, hp⟩
  cases basic with
  | none =>
    refine hnot (l := []) (by simp only [tableauRow, hbasic, Outcome.bind_ok]; rfl) ?_
    rintro ⟨col, b, e, h1, -⟩
    rw [hb2] at h1
    cases h1
  | some col =>
    have hcol : ∀ {col' : Int}, s.basis[k]? = some (some col') → col' = col := by
      intro col' h1
      rw [hb2] at h1
      exact (Option.some.inj (Option.some.inj h1)).symm
    cases hi : c.isInteger col with
    | false =>
      refine hnot (l := []) (by simp only [tableauRow, hbasic, Outcome.bind_ok, hi]; rfl) ?_
      rintro ⟨col', b, e, h1, h2, -⟩
      rw [hcol h1, hi] at h2
      cases h2
    | true =>
      cases hf : isIntegerWithinTolerance c.tol (o.value col) with
      | true =>
        refine hnot (l := []) (by simp only [tableauRow, hbasic, Outcome.bind_ok, hi, hf]; rfl) ?_
        rintro ⟨col', b, e, h1, -, h3, -⟩
        obtain ⟨n, hn⟩ := (C60_is_integer _ _).1 hf
        have := h3 n
        rw [hcol h1] at this
        exact absurd hn (not_le.2 this)
      | false =>
        obtain ⟨b, hb, hg, hbi⟩ := hs.inverse k hk
        obtain ⟨a, ha⟩ := C26_succeeds c.lp hr b hg.1 u hs.lhs hs.rhs hu hbi
        have hag := aggregate_spec hr hg.1 ha
        obtain ⟨⟨a', ok⟩, ht⟩ := shiftRow_ok (rc := Shift.toRhs) hs.upper a (by
          intro e he
          refine ⟨(hag.vars.1.2 e he).2, ?_⟩
          obtain ⟨f, hf, g, hg', hgd⟩ := column_origin hr hag he
          obtain ⟨-, hrow, -⟩ := aggregate_inRange' ha f hf
          have := hs.columns _ (List.mem_of_getElem? hrow) g hg'
          omega)
        have ht' : toNonNegative c.lp a = .ok (a', ok) := ht
        obtain ⟨-, -, e1, -, -, hok, -⟩ := shiftRow_vars hag.vars ht
        have he : tableauRow c s rs u o k = if !ok then .ok [] else roundAll c o a' 0 rs := by
          simp only [tableauRow, hbasic, hi, hf, hb, rowWeights_eq hg, ha, ht', Outcome.bind_ok, Bool.not_true,
            Bool.false_eq_true, if_false]
          rfl
        have hforeign : Foreign c s o k ↔ ∃ e ∈ a'.slackCoefs.entries, (c.integralRow.length : Int) ≤ e.index := by
          constructor
          · rintro ⟨col', b', e, -, -, -, h4, h5, h6⟩
            rw [hb] at h4
            cases Outcome.ok.inj h4
            rw [e1, hag.coefs]
            exact ⟨_, List.mem_map_of_mem h5, h6⟩
          · rintro ⟨e, h5, h6⟩
            rw [e1, hag.coefs] at h5
            obtain ⟨d, hd, rfl⟩ := List.mem_map.1 h5
            refine ⟨col, b, d, hb2, hi, fun n => ?_, hb, hd, h6⟩
            by_contra hlt
            have := (C60_is_integer c.tol (o.value col)).2 ⟨n, not_lt.1 hlt⟩
            rw [hf] at this
            cases this
        cases ok with
        | false =>
          refine hnot (l := []) (by rw [he]; rfl) fun _ _ hno => ?_
          have := hok.2 fun e _ => not_free hno e.index
          cases this
        | true =>
          rw [he]
          simp only [Bool.not_true, Bool.false_eq_true, if_false]
          have hone := roundOne_okOrUb hr hs hg hbi ha ht'
          refine ⟨roundAll_okOrUb hone rs 0, fun hn => ?_, fun hfo hm _ => ?_⟩
          · rw [hforeign] at hn
            push Not at hn
            have hall : ∀ r, ∃ res, roundOne c a' r = .ok res := by
              intro r
              obtain ⟨res, hres⟩ := round_ok (c := c) (a := a') (by
                intro e he
                refine ⟨?_, hn e he⟩
                rw [e1, hag.coefs] at he
                obtain ⟨d, hd, rfl⟩ := List.mem_map.1 he
                exact (hg.1.2 d hd).2) r
              exact roundOne_of_round hr hs hg hbi ha ht' hres
            have : ∀ (rs : List Rounder) (t : Nat), ∃ cuts, roundAll c o a' t rs = .ok cuts := by
              intro rs
              induction rs with
              | nil => intro t; exact ⟨[], rfl⟩
              | cons r rs ih =>
                intro t
                obtain ⟨res, hres⟩ := hall r
                simp only [roundAll, hres, Outcome.bind_ok]
                cases res with
                | none => exact ih t
                | some p =>
                  simp only
                  split
                  · obtain ⟨cuts, hcuts⟩ := ih (t + 1)
                    simp only [hcuts, Outcome.bind_ok, Outcome.pure_eq]
                    exact ⟨_, rfl⟩
                  · exact ih t
            exact this rs 0
          · exact roundAll_ub hone (r := .mir) (by rw [roundOne, mir_ub c a' (hforeign.1 hfo)]; rfl) rs hm 0

/-- **C34**, exactly when a call on a solved LP reads integrality data of a row `MipData` does not have: it never does
anything else than return cuts or read out of range; it returns if no row of the tableau it looks at combines such a row;
and it reads out of range if there is such a row of the tableau, MIR cuts are asked for, no column is free and the limit
does not end the loop before. -/
theorem C34_exactly_partial (c : GenContext) (s : SolverView) (hr : RowsClean c.lp) (hs : Consistent c s)
    (hsolved : s.isSolved = true) (hopt : s.isOptimal = true) (rs : List Rounder) (m : Int) (hm : 0 ≤ m)
    (primal : List ℚ) (hp : s.primal = .ok primal) :
    ((∃ cuts, generateCuttingPlanes c s rs m = .ok cuts) ∨ generateCuttingPlanes c s rs m = .ub) ∧
    ((∀ k < c.lp.rows.length, ¬ Foreign c s (SparseVector.ofDense primal) k) →
      ∃ cuts, generateCuttingPlanes c s rs m = .ok cuts) ∧
    (∀ k < c.lp.rows.length, Foreign c s (SparseVector.ofDense primal) k → .mir ∈ rs → NoFreeColumn c.lp →
      (rs.length * k : Nat) < m → generateCuttingPlanes c s rs m = .ub) := by
  obtain ⟨acts, hacts, hlen⟩ := hs.activities
  obtain ⟨u, hu, hulen⟩ := chooseSides_ok hs.lhs hs.rhs acts 0 (by omega)
  have he : generateCuttingPlanes c s rs m =
      tableauLoop c s rs m u (SparseVector.ofDense primal) c.lp.rows.length 0 [] := by
    unfold generateCuttingPlanes
    simp only [hsolved, hopt, Bool.not_true, Bool.false_eq_true, if_false, hacts, hu, hp, Outcome.bind_ok]
    rw [if_neg (show ¬ m < 0 by omega)]
  rw [he]
  have row := fun k hk => tableauRow_cases hr hs (hulen.trans hlen) rs (SparseVector.ofDense primal) k hk
  refine ⟨?_, fun hno => ?_, fun k hk hfo hmir hfree hmk => ?_⟩
  · have loop : ∀ (n k : Nat) (cuts : List CutData), k + n ≤ c.lp.rows.length →
        OkOrUb (tableauLoop c s rs m u (SparseVector.ofDense primal) n k cuts) := by
      intro n
      induction n with
      | zero => intro k cuts _; exact .inl ⟨cuts, rfl⟩
      | succ n ih =>
        intro k cuts hk
        simp only [tableauLoop]
        split
        · exact (row k (by omega)).1.bind fun new _ => ih (k + 1) _ (by omega)
        · exact .inl ⟨cuts, rfl⟩
    exact loop _ 0 [] (by omega)
  · have loop : ∀ (n k : Nat) (cuts : List CutData), k + n ≤ c.lp.rows.length →
        ∃ cuts', tableauLoop c s rs m u (SparseVector.ofDense primal) n k cuts = .ok cuts' := by
      intro n
      induction n with
      | zero => intro k cuts _; exact ⟨cuts, rfl⟩
      | succ n ih =>
        intro k cuts hk
        simp only [tableauLoop]
        split
        · obtain ⟨new, hnew⟩ := (row k (by omega)).2.1 (hno k (by omega))
          simp only [hnew, Outcome.bind_ok]
          exact ih (k + 1) _ (by omega)
        · exact ⟨cuts, rfl⟩
    exact loop _ 0 [] (by omega)
  · have loop : ∀ (n j : Nat) (cuts : List CutData), j + n ≤ c.lp.rows.length → j ≤ k → k < j + n →
        cuts.length ≤ rs.length * j → tableauLoop c s rs m u (SparseVector.ofDense primal) n j cuts = .ub := by
      intro n
      induction n with
      | zero => intro j cuts _ _ h3; omega
      | succ n ih =>
        intro j cuts hj hjk hkn hc
        have hmul : rs.length * j ≤ rs.length * k := Nat.mul_le_mul_left _ hjk
        simp only [tableauLoop]
        rw [if_pos (by omega)]
        rcases Nat.lt_or_ge j k with hlt | hge
        · rcases (row j (by omega)).1 with ⟨new, hnew⟩ | hnew
          · simp only [hnew, Outcome.bind_ok]
            have hn := (tableauRow_spec (by omega) hnew).1
            refine ih (j + 1) _ (by omega) hlt (by omega) ?_
            rw [List.length_append, Nat.mul_succ]
            omega
          · rw [hnew]; rfl
        · have : j = k := by omega
          subst this
          rw [(row j (by omega)).2.2 hfo hmir hfree]
          rfl
    exact loop _ 0 [] (by omega) (by omega) (by omega) (by simp)

/-- The hypotheses hold for the LP of `C34_cut_row_violated` with its cut: row 0 of the tableau combines row 1, the cut. -/
example : RowsClean (addCuts ex6 [ex6Cut]).lp ∧ NoFreeColumn (addCuts ex6 [ex6Cut]).lp ∧
    ex6Solver2.primal = .ok [3 / 2, 1] ∧ Foreign (addCuts ex6 [ex6Cut]) ex6Solver2 (SparseVector.ofDense [3 / 2, 1]) 0 := by
  refine ⟨?_, ?_, rfl, 0, _, ⟨1, -2⟩, rfl, rfl, ?_, rfl, ?_, ?_⟩
  · intro r hr
    have hr : r ∈ [(⟨[⟨0, 2⟩, ⟨1, 4⟩], false⟩ : SparseVector), ⟨[⟨1, 1⟩], false⟩] := hr
    simp only [List.mem_cons, List.not_mem_nil, or_false] at hr
    rcases hr with rfl | rfl <;> exact ⟨by norm_num [SparseVector.Clean, SparseVector.StrictSorted], rfl⟩
  · intro j l x hl _
    have hl : [Dbl.fin 0, Dbl.fin 0][j]? = some l := hl
    left
    have : l = .fin 0 := by
      rcases j with _ | _ | j <;> simp at hl <;> exact hl.symm
    subst this
    rfl
  · intro n
    have hv : (SparseVector.ofDense [3 / 2, 1]).value 0 = 3 / 2 := by decide +kernel
    rw [hv]
    change 0 < |(3 / 2 : ℚ) - n|
    refine abs_pos.2 fun h => ?_
    have h2 : (3 : ℚ) = ((2 * n : ℤ) : ℚ) := by push_cast; linarith
    have h3 : (3 : ℤ) = 2 * n := by exact_mod_cast h2
    omega
  · simp [ex6Solver2]
  · decide

/-- **C31**, the precondition: without a solved LP at its optimum the generator returns an error status and no cuts,
whatever its parameters; also with rounding. -/
theorem C31_needs_optimum (rs : List Rounder) (m : Int) :
    (∀ (c : GenContext) (s : SolverView), s.isSolved = false ∨ s.isOptimal = false →
      ∃ e, generateCuttingPlanes c s rs m = .error e) ∧
    ∀ (c : Ieee.GenContext) (s : Ieee.SolverView), s.isSolved = false ∨ s.isOptimal = false →
      ∃ e, Ieee.generateCuttingPlanes c s rs m = .error e := by
  constructor <;> intro c s h
  · cases h1 : s.isSolved <;> cases h2 : s.isOptimal <;>
      simp_all [generateCuttingPlanes]
  · cases h1 : s.isSolved <;> cases h2 : s.isOptimal <;>
      simp_all [Ieee.generateCuttingPlanes]

end Generator
end MiniMip
