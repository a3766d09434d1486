import Verif.Lemmas.GeneratorExact

/-!
# Rounded rows without entries

A row of the tableau whose rounded form vanishes identically has a non-negative right-hand side.
-/

namespace MiniMip.Generator
open SparseVector (Clean)

/-- The rounded row, coefficient by coefficient. -/
structure Explicit (c : GenContext) (rounder : Rounder) (a r : AggRow) (b : ℚ) (fv fs : Int → ℚ → ℚ) : Prop where
  vars : ∀ x, r.vars.eval x = (a.vars.entries.map fun e => fv e.index e.value * x e.index).sum
  slacks : ∀ s, r.slackCoefs.eval s = (a.slackCoefs.entries.map fun e => fs e.index e.value * s e.index).sum
  rhs : r.rhs = some (⌊b⌋ : ℚ)
  flags : rounder = .strongCG → ∀ e ∈ a.slackCoefs.entries, c.integralRow[e.index.toNat]? = some true
  keeps : ∀ e ∈ a.vars.entries, c.isInteger e.index = true → (∃ k : ℤ, e.value = k) → fv e.index e.value = e.value
  below : b = ⌊b⌋ → (rounder = .strongCG → ∀ e ∈ a.vars.entries, c.isInteger e.index = false → 0 ≤ e.value) →
    ∀ e ∈ a.vars.entries, fv e.index e.value ≤ e.value
  fixed : (⌊b⌋ : ℚ) < b → ∀ e ∈ a.slackCoefs.entries, e.value ≠ 0 → fs e.index e.value = e.value →
    c.integralRow[e.index.toNat]? = some true ∧ ∃ k : ℤ, e.value = k

theorem int_of_eq_floor {v : ℚ} (h : v - ⌊v⌋ = 0) : ∃ k : ℤ, v = k := ⟨⌊v⌋, by linarith⟩

theorem mir_explicit {c : GenContext} {a r : AggRow} (hv : a.vars.Good) (hs : a.slackCoefs.Good)
    (hex : ExactTolerance c.tol a) (h : mirRound c a = .ok (some r)) :
    ∃ b fv fs, a.rhs = some b ∧ Explicit c .mir a r b fv fs := by
  unfold mirRound at h
  split at h
  · obtain ⟨_, -, h⟩ := Outcome.bind_eq_ok.1 h
    simp at h
  rename_i b hb
  simp only at h
  obtain ⟨l, hl, h2⟩ := Outcome.bind_eq_ok.1 h
  have h3 := Option.some.inj (Outcome.ok.inj h2)
  clear h2 h
  have hbx := hex.rhs b hb
  set f0 := fractionality c.tol b with hf0
  have hf0' : f0 = b - ⌊b⌋ := hbx.fractionality
  have hf00 : 0 ≤ f0 := by rw [hf0']; have := Int.floor_le b; linarith
  have hf01 : f0 < 1 := by rw [hf0']; have := Int.lt_floor_add_one b; linarith
  set fv : Int → ℚ → ℚ := fun col x =>
    if c.isInteger col = true then mirRoundInteger c.tol x f0 else mirRoundContinuous x f0 with hfv
  set fs : Int → ℚ → ℚ := fun row x =>
    if c.integralRow[row.toNat]? = some true then mirRoundInteger c.tol x f0
    else mirRoundContinuous x f0 with hfs
  obtain ⟨t1, t2, t3⟩ := transform_spec hv fv
  obtain ⟨s1, s2, s3, s4⟩ := transformM_spec hs.1 hl (g := fs) (by
    intro e _ y hy
    obtain ⟨i, hi, hy⟩ := Outcome.bind_eq_ok.1 hy
    have hi := (listAt_eq_ok.1 hi).2
    have hy := Outcome.ok.inj hy
    rw [← hy, hfs]; simp only [hi, Option.some.injEq])
  have hval : ∀ v, Exact c.tol v → mirRoundInteger c.tol v f0 =
      if v - ⌊v⌋ ≤ f0 then (⌊v⌋ : ℚ) else ⌊v⌋ + (v - ⌊v⌋ - f0) / (1 - f0) := by
    intro v hv
    simp only [mirRoundInteger, hv.floor, hv.fractionality]
  refine ⟨b, fv, fs, hb, ?_⟩
  rw [← h3]
  refine ⟨fun x => t3 x, fun s => s3 s, by rw [hbx.floor], nofun, ?_, ?_, ?_⟩
  · rintro e he hi ⟨k, hk⟩
    simp only [hfv, hi, if_true]
    rw [hval _ (hex.vars e he), hk, Int.floor_intCast, sub_self, if_pos hf00]
  · intro hbb _ e he
    have hz : f0 = 0 := by rw [hf0']; linarith
    simp only [hfv]
    split
    · rw [hval _ (hex.vars e he), hz]
      have := Int.floor_le e.value
      split
      · exact this
      · simp
    · simp only [mirRoundContinuous, hz, sub_zero, div_one]
      split
      · assumption
      · exact le_refl _
  · intro hbb e he hne heq
    have hpos : 0 < f0 := by rw [hf0']; linarith
    by_cases hi : c.integralRow[e.index.toNat]? = some true
    · refine ⟨hi, ?_⟩
      simp only [hfs, hi, if_true] at heq
      rw [hval _ (hex.slacks e he)] at heq
      split at heq
      · exact ⟨_, heq.symm⟩
      · exfalso
        have h1 : (e.value - ⌊e.value⌋ - f0) / (1 - f0) = e.value - ⌊e.value⌋ := by linarith
        rw [div_eq_iff (by linarith)] at h1
        have h2 := Int.lt_floor_add_one e.value
        have : 0 < f0 * (1 - (e.value - ⌊e.value⌋)) := mul_pos hpos (by linarith)
        nlinarith
    · exfalso
      simp only [hfs, hi, if_false, mirRoundContinuous] at heq
      split at heq
      · exact hne heq.symm
      · rename_i h0
        have h0 := not_le.1 h0
        rw [div_eq_iff (by linarith)] at heq
        have : e.value * f0 < 0 := mul_neg_of_neg_of_pos h0 hpos
        nlinarith

theorem cg_explicit {c : GenContext} {a r : AggRow} (hv : a.vars.Good) (hs : a.slackCoefs.Good)
    (hex : ExactTolerance c.tol a) (h : strongCGRound c a = .ok (some r)) :
    ∃ b fv fs, a.rhs = some b ∧ Explicit c .strongCG a r b fv fs := by
  unfold strongCGRound at h
  obtain ⟨ok, hok, h⟩ := Outcome.bind_eq_ok.1 h
  cases ok with
  | false => simp at h
  | true =>
  have hsl := slacksAllowCG_spec hok
  simp only [Bool.not_true, Bool.false_eq_true, if_false] at h
  split at h
  · simp at h
  split at h
  · simp at h
  rename_i b hb
  split at h
  · simp at h
  obtain ⟨l, hl, h2⟩ := Outcome.bind_eq_ok.1 h
  have h3 := Option.some.inj (Outcome.ok.inj h2)
  clear h2 h
  have hbx := hex.rhs b hb
  set f0 := fractionality c.tol b with hf0
  have hf0' : f0 = b - ⌊b⌋ := hbx.fractionality
  have hf00 : 0 ≤ f0 := by rw [hf0']; have := Int.floor_le b; linarith
  have hf01 : f0 < 1 := by rw [hf0']; have := Int.lt_floor_add_one b; linarith
  set k : ℚ := ⌈1 / f0⌉ - 1 with hk
  set rd : ℚ → ℚ := fun x => if f0 = 0 then floorWithTolerance c.tol x else cgRoundInteger c.tol x k f0
    with hrd
  set fv : Int → ℚ → ℚ := fun col x => if c.isInteger col = true then rd x else 0 with hfv
  set fs : Int → ℚ → ℚ := fun row x => if c.integralRow[row.toNat]? = some true then rd x else 0 with hfs
  obtain ⟨t1, t2, t3⟩ := transform_spec hv fv
  obtain ⟨s1, s2, s3, s4⟩ := transformM_spec hs.1 hl (g := fs) (by
    intro e _ y hy
    obtain ⟨i, hi, hy⟩ := Outcome.bind_eq_ok.1 hy
    have hi := (listAt_eq_ok.1 hi).2
    have hy := Outcome.ok.inj hy
    rw [← hy, hfs]; simp only [hi, Option.some.injEq, hrd])
  have hval : ∀ v, Exact c.tol v → cgRoundInteger c.tol v k f0 =
      ⌊v⌋ + (if v - ⌊v⌋ ≤ f0 then 0 else (⌈k * (v - ⌊v⌋ - f0) / (1 - f0)⌉ : ℚ)) / (k + 1) := by
    intro v hv
    simp only [cgRoundInteger, hv.floor, hv.fractionality]
  refine ⟨b, fv, fs, hb, ?_⟩
  rw [← h3]
  refine ⟨fun x => t3 x, fun s => s3 s, by rw [hbx.floor], fun _ e he => (hsl e he).1, ?_, ?_, ?_⟩
  · rintro e he hi ⟨m, hm⟩
    simp only [hfv, hi, if_true, hrd]
    split
    · rw [(hex.vars e he).floor, hm, Int.floor_intCast]
    · rw [hval _ (hex.vars e he), hm, Int.floor_intCast, sub_self, if_pos hf00]
      simp
  · intro hbb hcont e he
    have hz : f0 = 0 := by rw [hf0']; linarith
    simp only [hfv, hrd, hz, if_true]
    split
    · rw [(hex.vars e he).floor]
      exact Int.floor_le e.value
    · rename_i hi
      exact hcont rfl e he (by simpa using hi)
  · intro hbb e he hne heq
    have hpos : 0 < f0 := by rw [hf0']; linarith
    have hi := (hsl e he).1
    refine ⟨hi, ?_⟩
    simp only [hfs, hi, if_true, hrd, hpos.ne', if_false] at heq
    rw [hval _ (hex.slacks e he)] at heq
    split at heq
    · rw [zero_div, add_zero] at heq
      exact ⟨_, heq.symm⟩
    · exfalso
      rename_i hlt
      have hlt := not_le.1 hlt
      set fr := e.value - ⌊e.value⌋ with hfr
      set P : ℤ := ⌈k * (fr - f0) / (1 - f0)⌉ with hP
      have hfr1 : fr < 1 := by have := Int.lt_floor_add_one e.value; linarith
      have hk1 : 1 / f0 ≤ k + 1 := by rw [hk]; have := Int.le_ceil (1 / f0); linarith
      have hkp : 0 < k + 1 := lt_of_lt_of_le (by positivity) hk1
      have hkf : 1 ≤ (k + 1) * f0 := by rwa [div_le_iff₀ hpos] at hk1
      have hPe : (P : ℚ) = fr * (k + 1) := by
        have : (P : ℚ) / (k + 1) = fr := by rw [hfr]; linarith
        rwa [div_eq_iff hkp.ne'] at this
      have hPlt : (P : ℚ) < k * (fr - f0) / (1 - f0) + 1 := Int.ceil_lt_add_one _
      have h1 : (P - 1 : ℚ) * (1 - f0) < k * (fr - f0) := by
        rw [← lt_div_iff₀ (by linarith)]; linarith
      rw [hPe] at h1
      have h2 : 0 ≤ (1 - fr) * ((k + 1) * f0 - 1) := mul_nonneg (by linarith) (by linarith)
      nlinarith

theorem sum_map_sub' {α : Type} (l : List α) (f g : α → ℚ) :
    (l.map fun e => f e - g e).sum = (l.map f).sum - (l.map g).sum := by
  induction l with
  | nil => simp
  | cons e l ih => simp only [List.map_cons, List.sum_cons, ih]; ring

theorem sum_map_neg' {α : Type} (l : List α) (f : α → ℚ) : (l.map fun e => -f e).sum = -(l.map f).sum := by
  induction l with
  | nil => simp
  | cons e l ih => simp only [List.map_cons, List.sum_cons, ih]; ring

theorem eval_unit {v : SparseVector} (hv : Clean v.entries) (j : Int) :
    v.eval (fun i => if i = j then 1 else 0) = v.value j := by
  rw [eval_eq_sum hv _ (insert j (v.entries.map (·.index)).toFinset) (by
    intro e he
    simp only [Finset.mem_insert, List.mem_toFinset, List.mem_map]
    exact Or.inr ⟨e, he, rfl⟩)]
  simp

theorem eval_zero_point (v : SparseVector) : v.eval (fun _ => 0) = 0 := by
  simp [SparseVector.eval, evalEntries]

/-- **Rounded rows without entries.**  Let the rows with a weight be linearly independent on a set of columns
whose coefficients in the aggregated row are zero or belong to non-negative integer variables and are
integers.  If the rounded row vanishes, its right-hand side is not negative. -/
theorem roundOne_empty {c : GenContext} (hr : RowsClean c.lp) (hI : IntegralRows c)
    (hnn : ∀ (j : Nat) l, c.isInteger j = true → c.lp.lower[j]? = some l → Dbl.le (.fin 0) l = true)
    {w : SparseVector} (hw : Clean w.entries) {u : List Bool} {a a' : AggRow}
    (ha : aggregateByWeight c.lp w u = .ok a) (ht : toNonNegative c.lp a = .ok (a', true))
    (hex : ExactTolerance c.tol a') {S : Set Int}
    (hS : ∀ j ∈ S, a.vars.value j = 0 ∨ c.isInteger j = true ∧ ∃ k : ℤ, a.vars.value j = k)
    (hind : ∀ ψ : Int → ℚ,
      (∀ j ∈ S, (w.entries.map fun f => ψ f.index * (c.lp.rowAt f.index).value j).sum = 0) →
      ∀ f ∈ w.entries, ψ f.index = 0)
    {x : Int → ℚ} (hx : InBounds c.lp x) {rounder : Rounder} {row : SparseVector} {rhs : ℚ}
    (h : roundOne c a' rounder = .ok (some (row, rhs))) (hz : row.entries = []) : 0 ≤ rhs := by
  have hag := aggregate_spec hr hw ha
  have hin := aggregate_inRange' ha
  obtain ⟨hv', hent, e1, e2, e3, hok, l, hl⟩ := shiftRow_vars hag.vars ht
  have hall := (shiftEntries_list _ hl).2.2
  have hfree := hok.1 rfl
  unfold roundOne at h
  obtain ⟨rounded, hround, h⟩ := Outcome.bind_eq_ok.1 h
  cases rounded with
  | none => simp at h
  | some r =>
  simp only at h
  obtain ⟨⟨r1, ok⟩, hback, h⟩ := Outcome.bind_eq_ok.1 h
  cases ok with
  | false => simp at h
  | true =>
  simp only [Bool.not_true, Bool.false_eq_true, if_false] at h
  obtain ⟨r2, hsub, h⟩ := Outcome.bind_eq_ok.1 h
  have h := Outcome.ok.inj h
  rcases hr2 : r2.rhs with _ | b2
  · rw [hr2] at h; simp at h
  rw [hr2] at h
  simp only [Option.map_some, Option.some.injEq, Prod.mk.injEq] at h
  obtain ⟨rfl, rfl⟩ := h
  have hs' : a'.slackCoefs.Good := by rw [e1]; exact hag.slackCoefs
  have hR : Rounded a' r ∧ ∃ b fv fs, a'.rhs = some b ∧ Explicit c rounder a' r b fv fs := by
    cases rounder with
    | mir =>
      obtain ⟨b, b', hb, hb', hrd, -, -⟩ := mirRound_spec hv' hs' hround
      exact ⟨hrd, mir_explicit hv' hs' hex hround⟩
    | strongCG =>
      obtain ⟨b, b', hb, hb', hrd, -, -⟩ := strongCGRound_spec hv' hs' hround
      exact ⟨hrd, cg_explicit hv' hs' hex hround⟩
  obtain ⟨hrd, b, fv, fs, hb, hE⟩ := hR
  obtain ⟨hv1, -, f1, f2, f3, -, -⟩ := shiftRow_vars hrd.vars hback
  obtain ⟨-, hsx⟩ := substituteSlacks_spec hr hv1 hsub
  obtain ⟨b1, hb1, hsx⟩ := hsx b2 hr2
  obtain ⟨b0, hb0, hbx⟩ := toOriginal_spec hrd.vars hback b1 hb1
  rw [hE.rhs] at hb0; simp only [Option.some.injEq] at hb0; subst hb0
  -- the rounded row at any point
  have hcut : ∀ x : Int → ℚ, (a'.vars.entries.map fun e => fv e.index e.value * shiftPoint c.lp x e.index).sum +
      (a'.slackCoefs.entries.map fun e => fs e.index e.value * slackPoint c.lp u x e.index).sum - ⌊b⌋ = -b2 := by
    intro x
    have h1 := hsx x
    have h2 := hbx x
    have hslack : r1.slackCoefs.eval (fun i =>
        r1.slackSigns.value i * (r1.sideValues.value i - (c.lp.rowAt i).eval x)) =
        r.slackCoefs.eval (slackPoint c.lp u x) := by
      rw [f1, f2, f3, hrd.signs, hrd.sides, e2, e3]
      apply eval_congr
      intro e he
      obtain ⟨d, hd, hde⟩ := hrd.slackIdx e he
      rw [e1, hag.coefs] at hd
      obtain ⟨f, hf, rfl⟩ := List.mem_map.1 hd
      simp only at hde
      obtain ⟨l1, l2⟩ := hag.lookup hf
      rw [← hde, l1, l2]; rfl
    have hzero : r2.vars.eval x = 0 := by simp [SparseVector.eval, evalEntries, hz]
    rw [hslack, hE.slacks, hzero] at h1
    rw [hE.vars] at h2
    linarith
  -- the row itself at any point
  obtain ⟨bb, hbb, hnb, hx'⟩ := toNonNegative_spec hag.vars ht b hb
  have hb2 := hag.rhs; rw [hbb] at hb2
  obtain ⟨hfin, hsum⟩ := addSides_some.1 hb2.symm
  have hbase : ∀ x : Int → ℚ, a'.vars.eval (shiftPoint c.lp x) + a'.slackCoefs.eval (slackPoint c.lp u x) = b := by
    intro x
    have heq := C26_aggregation c.lp hr w hw u a ha bb hbb x (slackPoint c.lp u x) (by
      intro e _ q hq
      unfold slackPoint
      rw [hq, ← mul_assoc, signAt_sq, finPart]; ring)
    have := hx' x
    rw [e1]; linarith
  -- integer variables are not shifted
  have hkeep : ∀ d ∈ a.vars.entries, c.isInteger d.index = true → shiftAt c.lp d.index = .keep := by
    intro d hd hi
    obtain ⟨s, hs⟩ := hall d hd
    rw [shiftAt_ok hs]
    unfold shiftOf at hs
    obtain ⟨lb, hlb, hs⟩ := Outcome.bind_eq_ok.1 hs
    obtain ⟨ub, hub, hs⟩ := Outcome.bind_eq_ok.1 hs
    have hs := Outcome.ok.inj hs
    obtain ⟨h0, hlb⟩ := listAt_eq_ok.1 hlb
    have := hnn d.index.toNat lb (by rw [Int.toNat_of_nonneg h0]; exact hi) hlb
    rw [← hs, if_pos this]
  -- the slacks keep their coefficients
  have hψ : ∀ f ∈ w.entries, fs f.index (signAt u f.index * f.value) = signAt u f.index * f.value := by
    have := hind (fun i => (fs i (signAt u i * w.value i) - signAt u i * w.value i) * signAt u i) (by
      intro j hj
      have p1 := hcut (fun i => if i = j then 1 else 0)
      have p0 := hcut (fun _ => 0)
      have q1 := hbase (fun i => if i = j then 1 else 0)
      have q0 := hbase (fun _ => 0)
      have hvars : ∀ e ∈ a'.vars.entries, (fv e.index e.value - e.value) *
          (shiftPoint c.lp (fun i => if i = j then 1 else 0) e.index - shiftPoint c.lp (fun _ => 0) e.index) = 0 := by
        intro e he
        by_cases hej : e.index = j
        · have he' := he
          rw [hent] at he'
          obtain ⟨d, hd, rfl⟩ := List.mem_map.1 he'
          simp only at hej
          have hval : a.vars.value d.index = d.value := value_of_mem hag.vars.1 hd
          rw [← hej] at hj
          rcases hS _ hj with h0 | ⟨hi, k, hk⟩
          · rw [hval] at h0
            exact absurd h0 (hag.vars.1.2 d hd).1
          · have hkp := hkeep d hd hi
            rw [hE.keeps _ he hi ⟨k, by rw [hkp]; simp only [Shift.coef]; rw [← hval, hk]⟩, sub_self, zero_mul]
        · simp [shiftPoint, hej]
      have hV : (a'.vars.entries.map fun e => fv e.index e.value *
            shiftPoint c.lp (fun i => if i = j then 1 else 0) e.index).sum -
          (a'.vars.entries.map fun e => fv e.index e.value * shiftPoint c.lp (fun _ => 0) e.index).sum =
          a'.vars.eval (shiftPoint c.lp (fun i => if i = j then 1 else 0)) -
          a'.vars.eval (shiftPoint c.lp (fun _ => 0)) := by
        unfold SparseVector.eval evalEntries
        rw [← sum_map_sub', ← sum_map_sub']
        congr 1
        apply List.map_congr_left
        intro e he
        have := hvars e he
        linarith
      have hSl : ∀ g : Int → ℚ → ℚ, (a'.slackCoefs.entries.map fun e => g e.index e.value *
            slackPoint c.lp u (fun i => if i = j then 1 else 0) e.index).sum -
          (a'.slackCoefs.entries.map fun e => g e.index e.value * slackPoint c.lp u (fun _ => 0) e.index).sum =
          (w.entries.map fun f => -(g f.index (signAt u f.index * f.value) * signAt u f.index *
            (c.lp.rowAt f.index).value j)).sum := by
        intro g
        rw [← sum_map_sub', e1, hag.coefs, List.map_map]
        congr 1
        apply List.map_congr_left
        intro f _
        simp only [Function.comp_apply, slackPoint, eval_unit (hr.rowAt f.index).1, eval_zero_point]
        ring
      have s1 := hSl fs
      have s2 := hSl (fun _ v => v)
      have s2' : a'.slackCoefs.eval (slackPoint c.lp u (fun i => if i = j then 1 else 0)) -
          a'.slackCoefs.eval (slackPoint c.lp u (fun _ => 0)) =
          (w.entries.map fun f => -(signAt u f.index * f.value * signAt u f.index *
            (c.lp.rowAt f.index).value j)).sum := s2
      have : (w.entries.map fun f => -(fs f.index (signAt u f.index * f.value) * signAt u f.index *
            (c.lp.rowAt f.index).value j)).sum -
          (w.entries.map fun f => -(signAt u f.index * f.value * signAt u f.index *
            (c.lp.rowAt f.index).value j)).sum = 0 := by linarith
      rw [← sum_map_sub'] at this
      rw [← neg_eq_zero, ← this, ← sum_map_neg']
      congr 1
      apply List.map_congr_left
      intro f hf
      have hwv : w.value f.index = f.value := value_of_mem hw hf
      simp only [hwv]
      ring)
    intro f hf
    have h1 := this f hf
    have hwv : w.value f.index = f.value := value_of_mem hw hf
    simp only [hwv] at h1
    rcases mul_eq_zero.1 h1 with h1 | h1
    · linarith
    · rcases signAt_cases u f.index with h2 | h2 <;> rw [h2] at h1 <;> norm_num at h1
  have hslackEq : ∀ x : Int → ℚ, (a'.slackCoefs.entries.map fun e => fs e.index e.value *
      slackPoint c.lp u x e.index).sum = a'.slackCoefs.eval (slackPoint c.lp u x) := by
    intro x
    unfold SparseVector.eval evalEntries
    congr 1
    apply List.map_congr_left
    intro e he
    rw [e1, hag.coefs] at he
    obtain ⟨f, hf, rfl⟩ := List.mem_map.1 he
    simp only
    rw [hψ f hf]
  -- the columns are integer variables if the rows are integral
  have hcols : (∀ f ∈ w.entries, c.integralRow[f.index.toNat]? = some true) →
      ∀ d ∈ a.vars.entries, c.isInteger d.index = true := by
    intro hflag d hd
    obtain ⟨f, hf, g, hg, hgd⟩ := column_origin hr hag hd
    rw [← hgd]
    exact (hI.coefs _ _ (hflag f hf) (hin f hf).2.1 g hg).1
  rcases (Int.floor_le b).eq_or_lt with hb' | hb'
  · -- nothing is rounded off the right-hand side
    have hle := hE.below hb'.symm (by
      intro hcg e he hcont
      exfalso
      have hflag := hE.flags hcg
      rw [hent] at he
      obtain ⟨d, hd, rfl⟩ := List.mem_map.1 he
      have := hcols (fun f hf => by
        refine hflag ⟨f.index, signAt u f.index * f.value⟩ ?_
        rw [e1, hag.coefs]; exact List.mem_map.2 ⟨f, hf, rfl⟩) d hd
      simp only at hcont
      rw [hcont] at this; cases this)
    have h1 := hcut x
    have h2 := hbase x
    rw [hslackEq] at h1
    have h3 : (a'.vars.entries.map fun e => fv e.index e.value * shiftPoint c.lp x e.index).sum ≤
        a'.vars.eval (shiftPoint c.lp x) := by
      unfold SparseVector.eval evalEntries
      apply List.sum_le_sum
      intro e he
      apply mul_le_mul_of_nonneg_right (hle e he)
      rw [hent] at he
      obtain ⟨d, hd, rfl⟩ := List.mem_map.1 he
      exact shiftPoint_nonneg hx (hall d hd) (hfree d hd) (hnb d hd)
    linarith
  · -- the right-hand side is an integer after all
    exfalso
    have hfix : ∀ f ∈ w.entries, c.integralRow[f.index.toNat]? = some true ∧ ∃ k : ℤ, f.value = k := by
      intro f hf
      have hm : (⟨f.index, signAt u f.index * f.value⟩ : Entry) ∈ a'.slackCoefs.entries := by
        rw [e1, hag.coefs]; exact List.mem_map.2 ⟨f, hf, rfl⟩
      obtain ⟨g1, k, g2⟩ := hE.fixed hb' _ hm (hs'.1.2 _ hm).1 (hψ f hf)
      refine ⟨g1, ?_⟩
      simp only at g2
      rcases signAt_cases u f.index with h2 | h2 <;> rw [h2] at g2
      · exact ⟨k, by linarith⟩
      · exact ⟨-k, by push_cast; linarith⟩
    have hint := hcols fun f hf => (hfix f hf).1
    have hbint : ∃ k : ℤ, bb = k := by
      have := coarse_sum (N := 1) (l := w.entries.map fun e => e.value * finPart (c.lp.sideAt u e.index)) (by
        intro v hv
        obtain ⟨f, hf, rfl⟩ := List.mem_map.1 hv
        obtain ⟨q, hq⟩ := hfin f hf
        obtain ⟨-, -, hside⟩ := hin f hf
        obtain ⟨g1, k, g2⟩ := hfix f hf
        rw [hq] at hside ⊢
        have : ∃ m : ℤ, q = m := by
          split at hside
          · exact hI.rhs _ _ g1 hside
          · exact hI.lhs _ _ g1 hside
        obtain ⟨m, rfl⟩ := this
        exact ⟨k * m, by rw [g2, finPart]; push_cast; ring⟩)
      obtain ⟨z, hz⟩ := this
      exact ⟨z, by rw [hsum, zero_add, ← hz]; simp⟩
    have hbeq : b = bb := by
      have h1 := hx' (fun _ => 0)
      have h2 : a'.vars.eval (shiftPoint c.lp (fun _ => 0)) = a.vars.eval (fun _ => 0) := by
        unfold SparseVector.eval evalEntries
        rw [hent, List.map_map]
        congr 1
        apply List.map_congr_left
        intro d hd
        simp [shiftPoint, hkeep d hd (hint d hd), Shift.point, Shift.coef]
      linarith
    obtain ⟨k, hk⟩ := hbint
    rw [hbeq, hk, Int.floor_intCast] at hb'
    exact lt_irrefl _ hb'

end MiniMip.Generator
