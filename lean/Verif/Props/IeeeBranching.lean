import Verif.Props.SolverWitness
import Verif.Model.IeeeBranching
import Verif.Lemmas.Ieee
import Verif.Props.SolverEnds

/-!
# C86: branch and bound in floating-point arithmetic
-/

namespace MiniMip
namespace Ieee

theorem sub_fin (a b : ℚ) : sub (.fin a) (.fin b) = round (a - b) := by
  show rounded (.fin (a + -b)) = _
  rw [← sub_eq_add_neg]; rfl

theorem sub_roundHalfAway {v : ℚ} (hv : IsDouble v) :
    sub (.fin v) (roundHalfAway (.fin v)) = .fin (v - roundAway v) := by
  unfold roundHalfAway
  rw [sub_fin, round_rep hv.1.sub_round ((abs_round_le v).trans hv.2)]

/-- The computed test is the exact one. -/
theorem isInteger_eq (tol : ℚ) {v : ℚ} (hv : IsDouble v) :
    isIntegerWithinTolerance (.fin tol) (.fin v) = Generator.isIntegerWithinTolerance tol v := by
  unfold isIntegerWithinTolerance Generator.isIntegerWithinTolerance
  rw [sub_roundHalfAway hv]
  rfl

/-- **C86, tests.**  For every double and every tolerance the computed `IsIntegerWithinTolerance` says whether the
double is within the tolerance of an integer, with no rounding error; `FloorWithTolerance` returns a double that is
the exact result. -/
theorem C86_tests (tol v : ℚ) (hv : IsDouble v) :
    (isIntegerWithinTolerance (.fin tol) (.fin v) = true ↔ ∃ n : ℤ, |v - n| ≤ tol) ∧
    ∃ n : ℤ, floorWithTolerance (.fin tol) (.fin v) = .fin n ∧ IsDouble n ∧
      ((∃ k : ℤ, |v - k| ≤ tol) → ∀ k : ℤ, |v - n| ≤ |v - k|) ∧
      ((¬ ∃ k : ℤ, |v - k| ≤ tol) → (n : ℚ) ≤ v ∧ v < n + 1) := by
  have h1 : isIntegerWithinTolerance (.fin tol) (.fin v) = true ↔ ∃ n : ℤ, |v - n| ≤ tol := by
    rw [isInteger_eq tol hv]
    unfold Generator.isIntegerWithinTolerance
    rw [decide_eq_true_iff, near_round_iff]
  refine ⟨h1, ?_⟩
  unfold floorWithTolerance
  by_cases h : isIntegerWithinTolerance (.fin tol) (.fin v) = true
  · rw [if_pos h]
    refine ⟨roundAway v, rfl, hv.roundAway, fun _ k => abs_sub_roundAway_le v k, fun h2 => absurd (h1.1 h) h2⟩
  · rw [if_neg h]
    refine ⟨⌊v⌋, rfl, hv.floor, fun h2 => absurd (h1.2 h2) h, fun _ => ⟨Int.floor_le v, Int.lt_floor_add_one v⟩⟩

theorem vecGet_map (values : List ℚ) (c : Int) :
    vecGet (values.map Dbl.fin) c = (vecGet values c >>= fun x => .ok (.fin x)) := by
  unfold vecGet
  by_cases h : 0 ≤ c
  · rw [if_pos h, if_pos h, List.getElem?_map]
    cases values[c.toNat]? <;> rfl
  · rw [if_neg h, if_neg h]; rfl

theorem allIntegral_eq {values : List ℚ} (hv : ∀ v ∈ values, IsDouble v) (tol : ℚ) (l : List Int) :
    allIntegral (values.map .fin) (.fin tol) l = MipData.allIntegral values tol l := by
  induction l with
  | nil => rfl
  | cons c r ih =>
    unfold allIntegral MipData.allIntegral
    rw [vecGet_map]
    unfold vecGet
    by_cases h : 0 ≤ c
    · rw [if_pos h, if_neg (by omega)]
      cases hx : values[c.toNat]? with
      | none => rfl
      | some x =>
        have hd := hv x (List.mem_of_getElem? hx)
        simp only [Outcome.bind_ok]
        rw [sub_roundHalfAway hd, ih]
        by_cases ht : |x - roundAway x| ≤ tol
        · rw [if_pos ht, if_pos (by simpa [abs] using ht)]
        · rw [if_neg ht, if_neg (by simpa [abs] using ht)]
    · rw [if_neg h, if_pos (by omega)]; rfl

/-- **C86, incumbents.**  For LP solutions made of doubles with a value for every integer variable, the computed
`SolutionIsIntegral` holds exactly if every integer variable is within the tolerance of an integer. -/
theorem C86_solution_is_integral (d : MipData) (values : List ℚ) (tol : ℚ) (hv : ∀ v ∈ values, IsDouble v)
    (hl : ∀ j ∈ d.integerVariables, 0 ≤ j ∧ j < values.length) :
    ∃ b, solutionIsIntegral d (values.map .fin) (.fin tol) = .ok b ∧
      (b = true ↔ ∀ (n : Nat) (x : ℚ), (n : Int) ∈ d.integerVariables → values[n]? = some x →
        ∃ k : ℤ, |x - k| ≤ tol) := by
  unfold solutionIsIntegral
  rw [allIntegral_eq hv]
  exact MipData.allIntegral_iff values tol d.integerVariables hl

/-- **C86, bounds of children.**  The bounds of the two children of a node, computed from a double, are doubles, and
every integer satisfies one of them. -/
theorem C86_child_bounds (v : ℚ) (hv : IsDouble v) :
    ∃ a b : ℤ, Dbl.floor (.fin v) = .fin a ∧ Dbl.ceil (.fin v) = .fin b ∧ IsDouble a ∧ IsDouble b ∧
      (∀ k : ℤ, k ≤ a ∨ b ≤ k) ∧ ((¬ ∃ k : ℤ, v = k) → (a : ℚ) < v ∧ v < b) := by
  refine ⟨⌊v⌋, ⌈v⌉, rfl, rfl, hv.floor, hv.ceil, fun k => ?_, fun h => ⟨?_, ?_⟩⟩
  · have := Int.ceil_le_floor_add_one v
    omega
  · rcases (Int.floor_le v).eq_or_lt with h2 | h2
    · exact absurd ⟨_, h2.symm⟩ h
    · exact h2
  · rcases (Int.le_ceil v).eq_or_lt with h2 | h2
    · exact absurd ⟨_, h2⟩ h
    · exact h2

/-! ## The max-fractional rule -/

/-- The computed fractional part. -/
theorem part_eq {v : ℚ} : abs (sub (.fin v) (Dbl.floor (.fin v))) = .fin (rnd (v - ⌊v⌋)) := by
  have h1 := Int.floor_le v
  have h2 := Int.lt_floor_add_one v
  have h3 : 0 ≤ rnd (v - ⌊v⌋) := rnd_nonneg (by linarith)
  have h4 : rnd (v - ⌊v⌋) ≤ 1 := by
    have := rnd_mono (x := v - ⌊v⌋) (y := 1) (by linarith)
    rwa [show rnd 1 = 1 by exact_mod_cast rnd_rep (rep_int (n := 1) (by norm_num))] at this
  show abs (sub (.fin v) (.fin _)) = _
  rw [sub_fin]
  unfold round
  rw [if_pos (le_maxFinite (by rw [abs_of_nonneg h3]; linarith))]
  show Dbl.fin |rnd _| = _
  rw [abs_of_nonneg h3]

theorem scan_spec {values : List ℚ} (hv : ∀ v ∈ values, IsDouble v) (tol : ℚ) (l : List Int) :
    ∀ (p0 : ℚ) (i0 : Int), (∀ j ∈ l, 0 ≤ j ∧ j < values.length) →
    ∃ p i, scan (.fin tol) (values.map .fin) (.fin p0, i0) l = .ok (.fin p, i) ∧ p0 ≤ p ∧
      ((p, i) = (p0, i0) ∨ (∃ (n : Nat) (x : ℚ), i = n ∧ (n : Int) ∈ l ∧ values[n]? = some x ∧
        Branching.Fractional tol x ∧ p = rnd (x - ⌊x⌋) ∧ p0 < p)) ∧
      ∀ (n : Nat) (x : ℚ), (n : Int) ∈ l → values[n]? = some x → Branching.Fractional tol x →
        rnd (x - ⌊x⌋) ≤ p := by
  induction l with
  | nil => intro p0 i0 _; exact ⟨p0, i0, rfl, le_refl _, Or.inl rfl, by simp⟩
  | cons j r ih =>
    intro p0 i0 hl
    obtain ⟨h0, h1⟩ := hl j (by simp)
    obtain ⟨n, rfl⟩ := Int.eq_ofNat_of_zero_le h0
    have hn : n < values.length := by omega
    have hx : values[n]? = some values[n] := by simp [hn]
    have hd := hv _ (List.mem_of_getElem? hx)
    unfold scan
    rw [vecGet_map, vecGet_some hx]
    simp only [Outcome.bind_ok]
    rw [isInteger_eq tol hd, part_eq]
    cases hint : Generator.isIntegerWithinTolerance tol values[n] with
    | true =>
      obtain ⟨p, i, h2, h3, h4, h5⟩ := ih p0 i0 (fun k hk => hl k (by simp [hk]))
      refine ⟨p, i, by simpa using h2, h3, ?_, ?_⟩
      · rcases h4 with h4 | ⟨m, x, ha, hb, hc⟩
        · exact Or.inl h4
        · exact Or.inr ⟨m, x, ha, by simp [hb], hc⟩
      · intro m x hm hmx hf
        rcases List.mem_cons.1 hm with hm | hm
        · have : m = n := by omega
          subst this
          rw [hx] at hmx; simp only [Option.some.injEq] at hmx; subst hmx
          rw [(Branching.not_within_iff _ _).2 hf] at hint; cases hint
        · exact h5 m x hm hmx hf
    | false =>
      have hfr := (Branching.not_within_iff _ _).1 hint
      simp only [Bool.false_eq_true, if_false, Dbl.lt_fin]
      by_cases hgt : p0 < rnd (values[n] - ⌊values[n]⌋)
      · rw [if_pos hgt]
        obtain ⟨p, i, h2, h3, h4, h5⟩ := ih (rnd (values[n] - ⌊values[n]⌋)) (n : Int)
          (fun k hk => hl k (by simp [hk]))
        refine ⟨p, i, h2, by linarith, Or.inr ?_, ?_⟩
        · rcases h4 with h4 | ⟨m, x, ha, hb, hc, hd, he, hf⟩
          · simp only [Prod.mk.injEq] at h4
            exact ⟨n, values[n], h4.2, by simp, hx, hfr, h4.1, by rw [h4.1]; exact hgt⟩
          · exact ⟨m, x, ha, by simp [hb], hc, hd, he, by linarith⟩
        · intro m x hm hmx hf
          rcases List.mem_cons.1 hm with hm | hm
          · have : m = n := by omega
            subst this
            rw [hx] at hmx; simp only [Option.some.injEq] at hmx; subst hmx
            exact h3
          · exact h5 m x hm hmx hf
      · rw [if_neg hgt]
        obtain ⟨p, i, h2, h3, h4, h5⟩ := ih p0 i0 (fun k hk => hl k (by simp [hk]))
        refine ⟨p, i, h2, h3, ?_, ?_⟩
        · rcases h4 with h4 | ⟨m, x, ha, hb, hc⟩
          · exact Or.inl h4
          · exact Or.inr ⟨m, x, ha, by simp [hb], hc⟩
        · intro m x hm hmx hf
          rcases List.mem_cons.1 hm with hm | hm
          · have : m = n := by omega
            subst this
            rw [hx] at hmx; simp only [Option.some.injEq] at hmx; subst hmx
            push Not at hgt
            linarith
          · exact h5 m x hm hmx hf

theorem frac_error (v : ℚ) : |rnd (v - ⌊v⌋) - (v - ⌊v⌋)| ≤ 1 / 2 ^ 53 := by
  have h1 := Int.floor_le v
  have h2 := Int.lt_floor_add_one v
  refine (rnd_error _).trans (max_le ?_ ?_)
  · rw [abs_of_nonneg (by linarith)]
    unfold u
    calc 1 / 2 ^ 53 * (v - ⌊v⌋) ≤ 1 / 2 ^ 53 * 1 := by gcongr; linarith
      _ = 1 / 2 ^ 53 := by ring
  · unfold eta
    exact one_div_le_one_div_of_le (by positivity) (pow_le_pow_right₀ (by norm_num) (by norm_num))

/-- **C86, branching.**  For every LP solution made of doubles in which some integer variable is farther than the
tolerance from every integer, the max-fractional rule, computed in floating-point arithmetic, returns an integer
variable that is farther than the tolerance from every integer.  Its fractional part is the largest up to `2 ^ -52`,
and is the largest if no such variable lies strictly between `-1/2` and `0`.  With unspecified direction a part of at
most one half goes up first. -/
theorem C86_max_fractional (unset : Int) (dir : Branching.Direction) (tol : ℚ) (htol : 0 ≤ tol) (ints : List Int)
    (values : List ℚ) (hv : ∀ v ∈ values, IsDouble v) (hl : ∀ j ∈ ints, 0 ≤ j ∧ j < values.length)
    (hfrac : ∃ (n : Nat) (x : ℚ), (n : Int) ∈ ints ∧ values[n]? = some x ∧ Branching.Fractional tol x) :
    ∃ (n : Nat) (x : ℚ) (up : Bool),
      maxFractional unset dir (.fin tol) ints (.ok (values.map .fin)) = .ok ((n : Int), up) ∧
      (n : Int) ∈ ints ∧ values[n]? = some x ∧ Branching.Fractional tol x ∧
      (∀ (m : Nat) (y : ℚ), (m : Int) ∈ ints → values[m]? = some y → Branching.Fractional tol y →
        y - ⌊y⌋ ≤ x - ⌊x⌋ + 1 / 2 ^ 52) ∧
      ((∀ (m : Nat) (y : ℚ), (m : Int) ∈ ints → values[m]? = some y → 0 ≤ y ∨ y ≤ -1 / 2) →
        ∀ (m : Nat) (y : ℚ), (m : Int) ∈ ints → values[m]? = some y → Branching.Fractional tol y →
          y - ⌊y⌋ ≤ x - ⌊x⌋) ∧
      (dir = .up → up = true) ∧ (dir = .down → up = false) ∧
      (dir = .unspecified → x - ⌊x⌋ ≤ 1 / 2 → up = true) ∧
      (dir = .unspecified → 1 / 2 + 1 / 2 ^ 53 < x - ⌊x⌋ → up = false) := by
  obtain ⟨p, i, h1, -, h3, h4⟩ := scan_spec hv tol ints 0 unset hl
  obtain ⟨m, y, hm, hy, hf⟩ := hfrac
  have hpos : 0 < p := by
    refine lt_of_lt_of_le ((hv y (List.mem_of_getElem? hy)).1.rnd_frac_pos fun k hk => ?_) (h4 m y hm hy hf)
    exact hf.not_int htol ⟨k, hk⟩
  rcases h3 with h3 | ⟨n, x, rfl, hn, hx, hfx, rfl, -⟩
  · simp only [Prod.mk.injEq] at h3; linarith [h3.1]
  have hne : ints ≠ [] := by rintro rfl; simp at hn
  refine ⟨n, x, (if dir = .unspecified then Dbl.le (.fin (rnd (x - ⌊x⌋))) (.fin (1 / 2)) else decide (dir = .up)),
    ?_, hn, hx, hfx, ?_, ?_, ?_, ?_, ?_, ?_⟩
  · unfold maxFractional
    rw [if_pos hne]
    simp only [h1, Outcome.bind_ok]
    rfl
  · intro m y hm hy hf
    have h5 := h4 m y hm hy hf
    have h6 := abs_le.1 (frac_error x)
    have h7 := abs_le.1 (frac_error y)
    have h8 : (1 : ℚ) / 2 ^ 52 = 1 / 2 ^ 53 + 1 / 2 ^ 53 := by norm_num
    linarith [h6.2, h7.1]
  · intro hsign m y hm hy hf
    have h5 := h4 m y hm hy hf
    have e : ∀ (m : Nat) (y : ℚ), (m : Int) ∈ ints → values[m]? = some y → rnd (y - ⌊y⌋) = y - ⌊y⌋ :=
      fun m y hm hy => rnd_rep ((hv y (List.mem_of_getElem? hy)).1.sub_floor (hsign m y hm hy))
    rwa [e m y hm hy, e n x hn hx] at h5
  · rintro rfl; simp
  · rintro rfl; simp
  · rintro rfl h
    rw [if_pos rfl, Dbl.le_fin]
    have := rnd_mono h
    rwa [rnd_rep (⟨1, -1, by norm_num, by norm_num, by norm_num⟩ : Rep (1 / 2))] at this
  · rintro rfl h
    rw [if_pos rfl, Bool.eq_false_iff]
    intro hc
    rw [Dbl.le_fin] at hc
    have := abs_le.1 (frac_error x)
    linarith [this.1]

/-! ## The search -/

/-- The branching rule is the max-fractional one in floating-point arithmetic, applied to the current LP solution. -/
def UsesMaxFractional {W : Type} (o : Solver.Oracle W) (d : MipData) (prm : Solver.Params) : Prop :=
  ∃ (unset : Int) (dir : Branching.Direction) (copy : W → MipData.HashOrder), ∀ w values, o.primal w = .ok values →
    o.branch w = (maxFractional unset dir (.fin prm.tol) ((copy w).apply d.integerVariables)
      (.ok (values.map .fin)) >>= fun r => .ok (w, r.1, r.2))

/-- **C86, termination.**  With the max-fractional rule in floating-point arithmetic, on every data whose integer
variables have finite bounds, `Solve` ends within twice as many iterations as the box of the integer variables has
integer points, for every LP solver whose solutions are doubles that respect the LP's bounds, and whatever the cut
runner does. -/
theorem C86_ends (d : MipData) (hd : Solver.DataOk d) (hf : Solver.FiniteIntegerBounds d) (W : Type)
    (o : Solver.Oracle W) (prm : Solver.Params) (Good : W → Prop) (bounds : W → Int → Dbl × Dbl) (w : W)
    (hp : Solver.PrimalShape o d.lower.length)
    (hc : Solver.Contract o Good bounds (Solver.BoundedAnswer o d bounds)) (hm : UsesMaxFractional o d prm)
    (hdbl : ∀ w values, o.primal w = .ok values → ∀ v ∈ values, IsDouble v)
    (htol : 0 ≤ prm.tol) (hg : Good w) (hs : Solver.StartsAt d bounds w) :
    Solver.solveFuel o d prm (Solver.iterationBound d) (Solver.initial w) ≠ none := by
  refine Solver.C37_ends_partial d hd hf W o prm Good bounds w hp hc ?_ hg hs
  obtain ⟨unset, dir, copy, hbr⟩ := hm
  intro w values w' col up v hv hi hb hx
  have hl : ∀ j ∈ d.integerVariables, 0 ≤ j ∧ j < values.length := by
    intro j hj; rw [hp w values hv]; exact hd.ints j hj
  obtain ⟨b, hb', hb2⟩ := MipData.allIntegral_iff values prm.tol d.integerVariables hl
  have hb'' : d.solutionIsIntegral values prm.tol = .ok b := hb'
  rw [hi] at hb''
  simp only [Outcome.ok.injEq] at hb''
  subst hb''
  simp only [Bool.false_eq_true, false_iff] at hb2
  push Not at hb2
  obtain ⟨n, x, hn, hx', hf'⟩ := hb2
  obtain ⟨c, v', u, h1, h2, h3, h4, -⟩ := C86_max_fractional unset dir prm.tol
    htol ((copy w).apply d.integerVariables) values (hdbl w values hv)
    (fun j hj => hl j (((copy w).perm _).mem_iff.1 hj))
    ⟨n, x, ((copy w).perm _).mem_iff.2 hn, hx', hf'⟩
  rw [hbr w values hv, h1] at hb
  simp only [Outcome.bind_ok, Outcome.ok.injEq, Prod.mk.injEq] at hb
  obtain ⟨-, hb, -⟩ := hb
  obtain rfl : col = c := by omega
  rw [hx] at h3
  simp only [Option.some.injEq] at h3
  subst h3
  exact ⟨((copy w).perm _).mem_iff.1 h2, fun k hk => h4.not_int htol ⟨k, hk⟩⟩

/-! ## The hypotheses can be met -/

theorem isDouble_threeHalves : IsDouble (3 / 2) :=
  ⟨⟨3, -1, by norm_num, by norm_num, by norm_num⟩, le_maxFinite (by rw [abs_of_nonneg] <;> norm_num)⟩

theorem isDouble_zero : IsDouble 0 := ⟨⟨0, 0, by norm_num, by norm_num, by norm_num⟩, le_maxFinite (by norm_num)⟩

theorem fractional_threeHalves : Branching.Fractional (1 / 1000000) (3 / 2) := by
  intro n
  have h1 : n ≤ 1 ∨ 2 ≤ n := by omega
  rcases h1 with h | h
  · have : (n : ℚ) ≤ 1 := by exact_mod_cast h
    rw [abs_of_nonneg (by linarith)]; linarith
  · have : (2 : ℚ) ≤ n := by exact_mod_cast h
    rw [abs_of_nonpos (by linarith)]; linarith

example : ∃ (n : Nat) (x : ℚ) (up : Bool),
    maxFractional (-1) .unspecified (.fin (1 / 1000000)) [1] (.ok ([0, 3 / 2].map .fin)) = .ok ((n : Int), up) ∧
    (n : Int) ∈ [(1 : Int)] := by
  obtain ⟨n, x, up, h1, h2, -⟩ := C86_max_fractional (-1) .unspecified (1 / 1000000) (by norm_num) [1] [0, 3 / 2]
    (by simp [isDouble_zero, isDouble_threeHalves]) (by simp) ⟨1, 3 / 2, by simp, rfl, fractional_threeHalves⟩
  exact ⟨n, x, up, h1, h2⟩

open Classical in
/-- The exact LP solver of `Solver.exampleLine`, restricted to doubles, with the rule in floating-point arithmetic. -/
noncomputable def exOracle : Solver.Oracle Solver.Line.World :=
  { Solver.exampleLine.oracle (.maxFractional .unspecified) 0 with
    primal := fun w => if IsDouble (Solver.exampleLine.value w) then .ok [0, Solver.exampleLine.value w] else .error ""
    branch := fun w => maxFractional (-1) .unspecified (.fin (1 / 1000000)) [1]
      (.ok [.fin 0, .fin (Solver.exampleLine.value w)]) >>= fun r => .ok (w, r.1, r.2) }

theorem exOracle_primal {w : Solver.Line.World} {values : List ℚ} (h : exOracle.primal w = .ok values) :
    IsDouble (Solver.exampleLine.value w) ∧ values = [0, Solver.exampleLine.value w] := by
  unfold exOracle at h
  simp only at h
  split_ifs at h with h1
  exact ⟨h1, (Outcome.ok.inj h).symm⟩

/-- The hypotheses of `C86_ends`, for a problem with an LP solution 3/2. -/
example :
    Solver.solveFuel exOracle Solver.exampleLine.data {} (Solver.iterationBound Solver.exampleLine.data)
      (Solver.initial Solver.exampleLine.start) ≠ none ∧
    exOracle.primal Solver.exampleLine.start = .ok [0, 3 / 2] := by
  have hr := Solver.exampleLine_represents
  have hints : Solver.exampleLine.data.integerVariables = [1] := by decide +kernel
  have hsh := (Solver.Line.primalShape hr (.maxFractional .unspecified) 0).2
  have hc := Solver.Line.contract hr (.maxFractional .unspecified) 0 _ (fun _ h => h.2.2)
  have hprim : ∀ w values, exOracle.primal w = .ok values →
      (Solver.exampleLine.oracle (.maxFractional .unspecified) 0).primal w = .ok values := by
    intro w values h
    rw [(exOracle_primal h).2]; rfl
  have hval : Solver.exampleLine.value Solver.exampleLine.start = 3 / 2 := by decide +kernel
  refine ⟨C86_ends Solver.exampleLine.data (Solver.dataOk_of_represents hr) (Solver.Line.finiteBounds hr) _ exOracle {}
    Solver.Line.Good id _ (fun w values h => hsh w values (hprim w values h)) ?_ ?_ ?_ (by norm_num)
    (Solver.Line.startsAt hr).1 (Solver.Line.startsAt hr).2, ?_⟩
  · constructor
    · exact hc.1
    · intro w w' hg hs
      obtain ⟨h1, h2, h3⟩ := hc.2 w w' hg hs
      exact ⟨h1, h2, fun hopt values hv => h3 hopt values (hprim _ _ hv)⟩
    · intro w w' hg ha _ hs
      have hs : w = w' := Outcome.ok.inj hs
      subst hs
      exact ⟨hg, rfl, ha⟩
    · intro w w' c up hg hs
      simp only [exOracle, Outcome.bind_eq_ok] at hs
      obtain ⟨r, -, hs⟩ := hs
      have hs := Outcome.ok.inj hs
      simp only [Prod.mk.injEq] at hs
      obtain ⟨rfl, -⟩ := hs
      exact ⟨hg, rfl⟩
  · refine ⟨-1, .unspecified, fun _ => .id, fun w values h => ?_⟩
    rw [hints, (exOracle_primal h).2]
    rfl
  · intro w values h v hv
    obtain ⟨h1, rfl⟩ := exOracle_primal h
    simp only [List.mem_cons, List.not_mem_nil, or_false] at hv
    rcases hv with rfl | rfl
    · exact isDouble_zero
    · exact h1
  · unfold exOracle
    simp only [hval]
    rw [if_pos (hval ▸ isDouble_threeHalves)]

end Ieee
end MiniMip
