import Verif.Props.SolverEnds

/-!
# A family of problems with an exact LP solver

Two columns: a continuous one in `[0, 1]` that occurs nowhere, and an integer column `x` in
`[l, u]` with the row `a ≤ 2 x ≤ b`; the objective is `x` plus an offset.  The LP solver
answers exactly.  The family shows that the hypotheses of C35–C38 and C40 can be met, and
holds the counterexamples.
-/

namespace MiniMip
namespace Solver

/-- The parameters of a problem of the family. -/
structure Line where
  l : ℚ
  u : ℚ
  a : ℚ
  b : ℚ
  max : Bool := false
  offset : ℚ := 0

namespace Line

/-- The problem. -/
def problem (p : Line) : Problem :=
  { vars := [{ name := "y", lower := .fin 0, upper := .fin 1 },
      { name := "x", objective := 1, lower := .fin p.l, upper := .fin p.u, isInteger := true }]
    constraints :=
      [{ name := "c", varIndices := [1], coefficients := [2], lhs := .fin p.a, rhs := .fin p.b }]
    isMaximization := p.max
    offset := p.offset }

/-- The LP solver's state: the bounds of its columns. -/
abbrev World := Int → Dbl × Dbl

/-- The least value of `x` the row and the bounds allow. -/
def low (p : Line) (w : World) : Dbl := Dbl.max (w 1).1 (.fin (p.a / 2))
/-- The largest value of `x` the row and the bounds allow. -/
def high (p : Line) (w : World) : Dbl := Dbl.min (w 1).2 (.fin (p.b / 2))
/-- The optimal value of `x`. -/
def value (p : Line) (w : World) : ℚ :=
  match (if p.max then p.high w else p.low w) with
  | .fin q => q
  | _ => 0

/-- The exact LP solver, without cuts, with a branching rule. -/
def oracle (p : Line) (rule : Branching.Rule) (draw : Nat) : Oracle World where
  setBounds := fun w j l u => if j = 1 then .ok (Function.update w j (l, u)) else .error "unused"
  solve := .ok
  isOptimal := fun w => Dbl.le (p.low w) (p.high w)
  separate := .ok
  objective := fun w => .fin (if p.max then -p.value w else p.value w)
  primal := fun w => .ok [0, p.value w]
  branch := fun w => rule.next (-1) (1 / 1000000) [1] (.ok [0, p.value w]) draw >>=
    fun r => .ok (w, r.1, r.2)

/-- The bounds of the unused column are as given. -/
def Good (w : World) : Prop := w 0 = (.fin 0, .fin 1)

/-- The LP after `PopulateFromMipData`. -/
def start (p : Line) : World := fun j => if j = 0 then (.fin 0, .fin 1) else (.fin p.l, .fin p.u)

theorem wellFormed {p : Line} (h1 : p.l ≤ p.u) (h2 : p.a ≤ p.b) : p.problem.WellFormed := by
  simp [problem, Problem.WellFormed, Variable.WellFormed, Constraint.WellFormed, Ordered, h1, h2]

variable {p : Line} {d : MipData}

theorem activity (p : Line) (x : Int → ℚ) :
    ∀ c ∈ p.problem.constraints, c.activity x = 2 * x 1 := by
  simp [problem, Constraint.activity]

theorem userObjective (p : Line) (x : Int → ℚ) : p.problem.userObjective x = x 1 + p.offset := by
  simp [Problem.userObjective, problem, objectiveFrom]

theorem objective (h : d.Represents p.problem) (x : Int → ℚ) :
    d.objective.eval x = if p.max then -x 1 else x 1 := by
  have h1 := h.objective x
  have h2 := h.offset
  rw [userObjective] at h1
  have e1 : p.problem.isMaximization = p.max := rfl
  have e2 : p.problem.offset = p.offset := rfl
  rw [e1] at h1 h2
  rw [e2] at h2
  cases hm : p.max <;> simp only [hm, if_true, Bool.false_eq_true, if_false] at h1 h2 ⊢ <;> linarith

theorem low_le (p : Line) (w : World) (x : ℚ) :
    Dbl.le (p.low w) (.fin x) = true ↔ Dbl.le (w 1).1 (.fin x) = true ∧ p.a ≤ 2 * x := by
  unfold low
  rw [Dbl.max_le_fin (by simp), Dbl.le_fin]
  constructor <;> rintro ⟨h1, h2⟩ <;> exact ⟨h1, by linarith⟩

theorem le_high (p : Line) (w : World) (x : ℚ) :
    Dbl.le (.fin x) (p.high w) = true ↔ Dbl.le (.fin x) (w 1).2 = true ∧ 2 * x ≤ p.b := by
  unfold high
  rw [Dbl.fin_le_min (by simp), Dbl.le_fin]
  constructor <;> rintro ⟨h1, h2⟩ <;> exact ⟨h1, by linarith⟩

theorem low_ne (p : Line) (w : World) : p.low w ≠ .ninf := by
  unfold low
  cases (w 1).1 <;> simp [Dbl.max, Dbl.lt]
  split <;> simp

theorem high_ne (p : Line) (w : World) : p.high w ≠ .pinf := by
  unfold high
  cases (w 1).2 <;> simp [Dbl.min, Dbl.lt]
  split <;> simp

/-- The LP is declared optimal exactly when some value is allowed, and then the value
returned is allowed and optimal. -/
theorem optimal_iff (p : Line) (w : World) :
    (Dbl.le (p.low w) (p.high w) = true →
      (Dbl.le (p.low w) (.fin (p.value w)) = true ∧ Dbl.le (.fin (p.value w)) (p.high w) = true) ∧
      ∀ x, Dbl.le (p.low w) (.fin x) = true → Dbl.le (.fin x) (p.high w) = true →
        if p.max then x ≤ p.value w else p.value w ≤ x) ∧
    (Dbl.le (p.low w) (p.high w) = false →
      ∀ x, ¬ (Dbl.le (p.low w) (.fin x) = true ∧ Dbl.le (.fin x) (p.high w) = true)) := by
  have hl := p.low_ne w
  have hh := p.high_ne w
  unfold value
  cases e1 : p.low w <;> cases e2 : p.high w <;> rw [e1] at hl <;> rw [e2] at hh <;>
    simp_all [Dbl.le]
  constructor
  · intro h
    cases p.max <;> simp [h]
  · intro h x h1
    linarith

theorem inBounds (h : d.Represents p.problem) (w : World) (x : Int → ℚ) :
    InBounds d id w x ↔ Between (w 0).1 (x 0) (w 0).2 ∧ Between (w 1).1 (x 1) (w 1).2 := by
  have hlen : d.lower.length = 2 := by rw [h.lower]; rfl
  unfold InBounds
  rw [hlen]
  constructor
  · intro h; exact ⟨h 0 (by omega), h 1 (by omega)⟩
  · rintro ⟨h0, h1⟩ n hn
    match n, hn with
    | 0, _ => exact h0
    | 1, _ => exact h1

theorem inBounds_rows (h : d.Represents p.problem) (w : World) (hg : Good w) (x : Int → ℚ) :
    (InBounds d id w x ∧ RowsHold d x) ↔
      (0 ≤ x 0 ∧ x 0 ≤ 1) ∧ Dbl.le (p.low w) (.fin (x 1)) = true ∧
        Dbl.le (.fin (x 1)) (p.high w) = true := by
  rw [inBounds h, hg, low_le, le_high]
  have hr : RowsHold d x ↔ p.a ≤ 2 * x 1 ∧ 2 * x 1 ≤ p.b := by
    obtain ⟨m, v, hm, -, -, hev, -⟩ := h.rows 0 _ rfl
    have hlhs : d.lhs = [.fin p.a] := by rw [h.lhs]; rfl
    have hrhs : d.rhs = [.fin p.b] := by rw [h.rhs]; rfl
    have hact := activity p x _ (List.mem_singleton.2 rfl)
    constructor
    · intro hh
      have := hh 0 (.fin p.a) (.fin p.b) m v (by rw [hlhs]; rfl) (by rw [hrhs]; rfl) hm
      rw [hev, hact] at this
      simpa [Between] using this
    · intro hh r l u m' v' hl hu hm'
      rw [hlhs] at hl; rw [hrhs] at hu
      have hr0 : r = 0 := by
        have := (List.getElem?_eq_some_iff.1 hl).1
        simpa using this
      subst hr0
      rw [hm] at hm'
      simp only [Outcome.ok.injEq, Prod.mk.injEq] at hm'
      obtain ⟨-, rfl⟩ := hm'
      simp only [List.getElem?_cons_zero, Option.some.injEq] at hl hu
      subst hl hu
      rw [hev, hact]
      simpa [Between] using hh
  rw [hr]
  simp only [Between, Dbl.le_fin]
  tauto

/-- The answers of the LP solver are right. -/
theorem answers (h : d.Represents p.problem) (rule : Branching.Rule) (draw : Nat) (w : World)
    (hg : Good w) :
    FeasibleAnswer (p.oracle rule draw) d id w ∧ OptimalAnswer (p.oracle rule draw) d id w ∧
      BoundedAnswer (p.oracle rule draw) d id w := by
  obtain ⟨ho, hn⟩ := optimal_iff p w
  have hfeas : FeasibleAnswer (p.oracle rule draw) d id w := by
    intro hopt values hv
    obtain ⟨⟨h1, h2⟩, -⟩ := ho hopt
    have hv : [0, p.value w] = values := Outcome.ok.inj hv
    subst hv
    exact (inBounds_rows h w hg _).2 ⟨by simp [point], by simpa [point] using h1, by simpa [point] using h2⟩
  refine ⟨hfeas, ⟨?_, ?_⟩, fun hopt values hv => (hfeas hopt values hv).1⟩
  · intro hopt values hv
    obtain ⟨-, h3⟩ := ho hopt
    have hv : [0, p.value w] = values := Outcome.ok.inj hv
    subst hv
    refine ⟨by rw [objective h]; simp [oracle, point], fun x hx hb => ?_⟩
    obtain ⟨-, h4, h5⟩ := (inBounds_rows h w hg x).1 ⟨hb, hx.2.2⟩
    have := h3 _ h4 h5
    rw [objective h, objective h]
    cases hm : p.max <;> simp_all [point]
  · intro hopt _ x hx hb
    obtain ⟨-, h4, h5⟩ := (inBounds_rows h w hg x).1 ⟨hb, hx.2.2⟩
    exact hn hopt _ ⟨h4, h5⟩

theorem contract (h : d.Represents p.problem) (rule : Branching.Rule) (draw : Nat)
    (Answer : World → Prop) (ha : ∀ w, FeasibleAnswer (p.oracle rule draw) d id w ∧
      OptimalAnswer (p.oracle rule draw) d id w ∧ BoundedAnswer (p.oracle rule draw) d id w → Answer w) :
    Contract (p.oracle rule draw) Good id Answer := by
  constructor
  · intro w j l u w' hg hs
    simp only [oracle] at hs
    split at hs
    · rename_i hj
      have hs := Outcome.ok.inj hs
      subst hs hj
      exact ⟨by simpa [Good] using hg, rfl⟩
    · cases hs
  · intro w w' hg hs
    have hs : w = w' := Outcome.ok.inj hs
    subst hs
    exact ⟨hg, rfl, ha _ (answers h rule draw w hg)⟩
  · intro w w' hg _ _ hs
    have hs : w = w' := Outcome.ok.inj hs
    subst hs
    exact ⟨hg, rfl, ha _ (answers h rule draw w hg)⟩
  · intro w w' c up hg hs
    simp only [oracle, Outcome.bind_eq_ok] at hs
    obtain ⟨r, -, hs⟩ := hs
    have hs := Outcome.ok.inj hs
    simp only [Prod.mk.injEq] at hs
    obtain ⟨rfl, -⟩ := hs
    exact ⟨hg, rfl⟩

theorem primalShape (h : d.Represents p.problem) (rule : Branching.Rule) (draw : Nat) :
    PrimalShape (p.oracle rule draw) p.problem.vars.length ∧
    PrimalShape (p.oracle rule draw) d.lower.length := by
  have hlen : d.lower.length = 2 := by rw [h.lower]; rfl
  constructor
  all_goals
    intro w values hv
    have hv : [0, p.value w] = values := Outcome.ok.inj hv
    subst hv
  · rfl
  · rw [hlen]; rfl

theorem startsAt (h : d.Represents p.problem) : Good p.start ∧ StartsAt d id p.start := by
  have hl : d.lower = [.fin 0, .fin p.l] := by rw [h.lower]; rfl
  have hu : d.upper = [.fin 1, .fin p.u] := by rw [h.upper]; rfl
  refine ⟨by simp [Good, start], fun n l u h1 h2 => ?_⟩
  rw [hl] at h1; rw [hu] at h2
  match n with
  | 0 => simp at h1 h2; subst h1 h2; simp [start]
  | 1 => simp at h1 h2; subst h1 h2; simp [start]
  | n + 2 => simp at h1

theorem finiteBounds (h : d.Represents p.problem) : FiniteIntegerBounds d := by
  have hl : d.lower = [.fin 0, .fin p.l] := by rw [h.lower]; rfl
  have hu : d.upper = [.fin 1, .fin p.u] := by rw [h.upper]; rfl
  intro n hn
  obtain ⟨m, v, hv, hi, hm⟩ := (h.integers n).1 hn
  obtain rfl : n = m := by omega
  match n with
  | 0 => simp [problem] at hv; subst hv; simp at hi
  | 1 => exact ⟨p.l, p.u, by rw [hl]; rfl, by rw [hu]; rfl⟩
  | n + 2 => simp [problem] at hv

theorem integerVariables (h : d.Represents p.problem) (j : Int) : j ∈ d.integerVariables ↔ j = 1 := by
  rw [h.integers]
  constructor
  · rintro ⟨n, v, hv, hi, rfl⟩
    match n with
    | 0 => simp [problem] at hv; subst hv; simp at hi
    | 1 => rfl
    | n + 2 => simp [problem] at hv
  · rintro rfl
    exact ⟨1, _, rfl, rfl, rfl⟩

/-- The data of a problem of the family, computed. -/
def data (p : Line) : MipData :=
  match MipData.ofProblem .id p.problem with
  | .ok d => d
  | _ => {}

theorem represents (h1 : p.l ≤ p.u) (h2 : p.a ≤ p.b) : p.data.Represents p.problem := by
  obtain ⟨d, hd, hr⟩ := C09_represents .id p.problem (wellFormed h1 h2)
  unfold data
  rw [hd]; exact hr

/-- Running `Solve` with the default rule on a problem of the family. -/
def run (p : Line) (fuel : Nat) : Option (Outcome SolveResult) :=
  (solveFuel (p.oracle (.maxFractional .unspecified) 0) p.data {} fuel (initial p.start)).map
    fun out => out >>= fun s => .ok s.result

theorem run_ok {p : Line} {fuel : Nat} {r : SolveResult} (h : p.run fuel = some (.ok r)) :
    ∃ s, solveFuel (p.oracle (.maxFractional .unspecified) 0) p.data {} fuel (initial p.start) =
      some (.ok s) ∧ s.result = r := by
  unfold run at h
  rw [Option.map_eq_some_iff] at h
  obtain ⟨out, h1, h2⟩ := h
  rw [Outcome.bind_eq_ok] at h2
  obtain ⟨s, rfl, h2⟩ := h2
  exact ⟨s, h1, Outcome.ok.inj h2⟩

end Line

open Line

/-- `max x`, `2 x ≤ 3`, `0 ≤ x ≤ 5`, offset 7. -/
def exampleLine : Line := { l := 0, u := 5, a := -1, b := 3, max := true, offset := 7 }

theorem exampleLine_represents : exampleLine.data.Represents exampleLine.problem :=
  represents (by norm_num [exampleLine]) (by norm_num [exampleLine])

/-- The hypotheses of C35, C36, C37, C38 and C40 are met by this problem and its exact LP
solver with the default rule; the root LP has the value 3/2, `Solve` branches and returns the
solution `x = 1`. -/
example :
    let d := exampleLine.data
    let o := exampleLine.oracle (.maxFractional .unspecified) 0
    exampleLine.problem.WellFormed ∧ d.Represents exampleLine.problem ∧
    PrimalShape o exampleLine.problem.vars.length ∧ DataOk d ∧ FiniteIntegerBounds d ∧
    Contract o Good id (FeasibleAnswer o d id) ∧ Contract o Good id (OptimalAnswer o d id) ∧
    Contract o Good id (BoundedAnswer o d id) ∧ UsesMaxFractional o d {} ∧ Responsive o d {} ∧
    Good exampleLine.start ∧ StartsAt d id exampleLine.start ∧
    exampleLine.run 4 = some (.ok { solveStatus := some 2, best := ⟨[0, 1], .fin (-1)⟩ }) ∧
    exampleLine.run 3 = none := by
  have hr := exampleLine_represents
  have hints : exampleLine.data.integerVariables = [1] := by decide +kernel
  have hd := dataOk_of_represents hr
  have hp := primalShape hr (.maxFractional .unspecified) 0
  have hm : UsesMaxFractional (exampleLine.oracle (.maxFractional .unspecified) 0) exampleLine.data {} :=
    ⟨-1, .unspecified, fun _ => .id, fun w values hv => by rw [hints, ← hv]; rfl⟩
  refine ⟨wellFormed (by norm_num [exampleLine]) (by norm_num [exampleLine]), hr, hp.1,
    hd, finiteBounds hr, contract hr _ _ _ (fun _ h => h.1), contract hr _ _ _ (fun _ h => h.2.1),
    contract hr _ _ _ (fun _ h => h.2.2), hm, ?_,
    (startsAt hr).1, (startsAt hr).2, by decide +kernel, by decide +kernel⟩
  refine ⟨?_, fun w => ⟨w, rfl⟩, fun w _ => ⟨w, rfl⟩, fun w _ => ⟨_, rfl⟩, ?_⟩
  · intro w j hj l u
    rw [integerVariables hr] at hj
    exact ⟨_, if_pos hj⟩
  · intro w values hv hi
    obtain ⟨col, up, v, h1, h2, -⟩ := maxFractional_fractional hd hp.2 hm (by norm_num) hv hi
    exact ⟨w, col, up, h1, hd.ints _ h2⟩

/-- **C36 fails.**  `0 ≤ x ≤ 1` integer with `2 x = 1` has no feasible point, the LP solver
answers exactly, and `Solve` ends with OK and the status `kOptimal`, without a solution. -/
theorem C36_infeasible_reported_optimal_violated :
    ∃ (p : Problem) (d : MipData) (o : Oracle World) (w : World) (fuel : Nat) (s : State World),
      p.WellFormed ∧ MipData.ofProblem .id p = .ok d ∧
      Contract o Good id (fun w => FeasibleAnswer o d id w ∧ OptimalAnswer o d id w) ∧
      Good w ∧ StartsAt d id w ∧ (∀ y, ¬ p.Feasible y) ∧
      solveFuel o d {} fuel (initial w) = some (.ok s) ∧
      s.result = { solveStatus := some SolveStatus.optimal } := by
  let p : Line := { l := 0, u := 1, a := 1, b := 1 }
  have hw : p.problem.WellFormed := wellFormed (by norm_num [p]) (by norm_num [p])
  have hr : p.data.Represents p.problem := represents (by norm_num [p]) (by norm_num [p])
  have hd : MipData.ofProblem .id p.problem = .ok p.data := by
    obtain ⟨d, hd, -⟩ := C09_represents .id _ hw
    unfold data
    rw [hd]
  obtain ⟨s, h1, h2⟩ := run_ok (p := p) (fuel := 5) (r := { solveStatus := some 2 }) (by decide +kernel)
  refine ⟨p.problem, p.data, p.oracle (.maxFractional .unspecified) 0, p.start, 5, s, hw, hd,
    contract hr _ _ _ (fun _ h => ⟨h.1, h.2.1⟩), (startsAt hr).1, (startsAt hr).2, ?_, h1, h2⟩
  intro y hy
  obtain ⟨k, hk⟩ := (hy.1 1 _ rfl).2 rfl
  have hk : y 1 = k := by simpa using hk
  obtain ⟨hb1, hb2⟩ := hy.2 _ (List.mem_singleton.2 rfl)
  have ha := activity p y _ (List.mem_singleton.2 rfl)
  rw [ha, hk] at hb1 hb2
  rw [Dbl.le_fin] at hb1 hb2
  have e1 : ((2 * k : Int) : ℚ) ≤ (1 : Int) := by push_cast; exact hb2
  have e2 : ((1 : Int) : ℚ) ≤ (2 * k : Int) := by push_cast; exact hb1
  have e1' : 2 * k ≤ 1 := by exact_mod_cast e1
  have e2' : 1 ≤ 2 * k := by exact_mod_cast e2
  omega

/-- **C40 fails** for maximisation and for problems with an offset: for `max x` on
`0 ≤ x ≤ 1` the solution `x = 1` is reported with objective −1 instead of 1; for `min x + 5`
the solution `x = 0` is reported with objective 0 instead of 5. -/
theorem C40_violated :
    ∃ (pmax poff : Line) (smax soff : State World),
      pmax.problem.WellFormed ∧ pmax.problem.isMaximization = true ∧ pmax.problem.offset = 0 ∧
      poff.problem.WellFormed ∧ poff.problem.isMaximization = false ∧ poff.problem.offset = 5 ∧
      solveFuel (pmax.oracle (.maxFractional .unspecified) 0) pmax.data {} 1 (initial pmax.start) =
        some (.ok smax) ∧
      solveFuel (poff.oracle (.maxFractional .unspecified) 0) poff.data {} 1 (initial poff.start) =
        some (.ok soff) ∧
      smax.result.best.objective = .fin (-1) ∧
      pmax.problem.userObjective (point smax.result.best.values) = 1 ∧
      soff.result.best.objective = .fin 0 ∧
      poff.problem.userObjective (point soff.result.best.values) = 5 := by
  let pmax : Line := { l := 0, u := 1, a := 0, b := 2, max := true }
  let poff : Line := { l := 0, u := 1, a := 0, b := 2, offset := 5 }
  obtain ⟨s1, h1, e1⟩ := run_ok (p := pmax) (fuel := 1) (r := { solveStatus := some 2, best := ⟨[0, 1], .fin (-1)⟩ })
    (by decide +kernel)
  obtain ⟨s2, h2, e2⟩ := run_ok (p := poff) (fuel := 1) (r := { solveStatus := some 2, best := ⟨[0, 0], .fin 0⟩ })
    (by decide +kernel)
  refine ⟨pmax, poff, s1, s2, wellFormed (by norm_num [pmax]) (by norm_num [pmax]), rfl, rfl,
    wellFormed (by norm_num [poff]) (by norm_num [poff]), rfl, rfl, h1, h2, by rw [e1],
    by rw [e1, userObjective]; simp [point, pmax], by rw [e2],
    by rw [e2, userObjective]; simp [point, poff]⟩

/-- **C37 fails for the random rule.**  For `max x`, `2 x ≤ 1`, `0 ≤ x ≤ 1` with `x` the second
column (the first is continuous), an exact LP solver and the random rule, `Solve` does not
end, whatever is drawn: the rule always returns the continuous column, whose bounds `Solve`
does not pass to the LP. -/
theorem C37_random_violated :
    ∃ (p : Problem) (d : MipData) (w : World), p.WellFormed ∧ MipData.ofProblem .id p = .ok d ∧
      FiniteIntegerBounds d ∧ (∃ y, p.Feasible y) ∧
      ∀ (draw : Nat) (dir : Branching.Direction), ∃ o : Oracle World,
        (∀ w, o.branch w = (Branching.random dir d.integerVariables draw >>= fun r => .ok (w, r.1, r.2))) ∧
        Contract o Good id (fun w => FeasibleAnswer o d id w ∧ OptimalAnswer o d id w) ∧
        Good w ∧ StartsAt d id w ∧ ∀ fuel, solveFuel o d {} fuel (initial w) = none := by
  let p : Line := { l := 0, u := 1, a := -1, b := 1, max := true }
  have hw : p.problem.WellFormed := wellFormed (by norm_num [p]) (by norm_num [p])
  have hr : p.data.Represents p.problem := represents (by norm_num [p]) (by norm_num [p])
  have hdd := dataOk_of_represents hr
  have hd : MipData.ofProblem .id p.problem = .ok p.data := by
    obtain ⟨d, hd, -⟩ := C09_represents .id _ hw
    unfold data
    rw [hd]
  have hints : p.data.integerVariables = [1] := by decide +kernel
  refine ⟨p.problem, p.data, p.start, hw, hd, finiteBounds hr, ⟨fun _ => 0, ?_, ?_⟩, ?_⟩
  · intro n v hv
    match n with
    | 0 => simp [problem] at hv; subst hv; simp [Between]
    | 1 =>
      simp [problem] at hv; subst hv
      exact ⟨by norm_num [Between, p], fun _ => ⟨0, by simp⟩⟩
    | n + 2 => simp [problem] at hv
  · intro c hc
    have ha := activity p (fun _ => 0) c hc
    simp only [problem, List.mem_singleton] at hc
    subst hc
    rw [ha]; norm_num [Between, p]
  intro draw dir
  have hrand : Branching.random dir [1] draw = .ok (0, decide (dir = .up)) := by
    simp [Branching.random, Nat.mod_one]
  let o := p.oracle (.random dir) draw
  have hbranch : ∀ w, o.branch w = .ok (w, 0, decide (dir = .up)) := by
    intro w
    show (Branching.random dir [1] draw >>= _) = _
    rw [hrand]; rfl
  have hc := contract hr (.random dir) draw
    (fun w => FeasibleAnswer o p.data id w ∧ OptimalAnswer o p.data id w ∧
      BoundedAnswer o p.data id w) (fun w h => h)
  refine ⟨o, fun w => ?_, contract hr _ _ _ (fun _ h => ⟨h.1, h.2.1⟩), (startsAt hr).1, (startsAt hr).2, ?_⟩
  · rw [hints, hbranch, hrand]; rfl
  -- the LP of a box that does not constrain `x` is optimal with the value 1/2
  have half : ∀ (b : Box) (w : World), (∀ y, b 1 y) →
      (∀ x, InBounds p.data id w x ↔ InRootBounds p.data x ∧ InBox p.data b x) →
      o.isOptimal w = true ∧ o.primal w = .ok [0, 1 / 2] := by
    intro b w hb hx
    have hin : InBounds p.data id w (fun j => if j = 1 then 1 / 2 else 0) := by
      rw [hx]
      refine ⟨?_, fun n hn => ?_⟩
      · intro n l u hl hu
        have hl' : p.data.lower = [.fin 0, .fin 0] := by rw [hr.lower]; rfl
        have hu' : p.data.upper = [.fin 1, .fin 1] := by rw [hr.upper]; rfl
        rw [hl'] at hl; rw [hu'] at hu
        match n with
        | 0 => simp at hl hu; subst hl hu; simp [Between]
        | 1 => simp at hl hu; subst hl hu; norm_num [Between]
        | n + 2 => simp at hl
      · rw [integerVariables hr] at hn
        obtain rfl : n = 1 := by omega
        exact hb _
    obtain ⟨-, hb1, hb2⟩ := (inBounds hr w _).1 hin
    obtain ⟨ho, hn⟩ := optimal_iff p w
    have hl : Dbl.le (p.low w) (.fin (1 / 2)) = true :=
      (low_le p w _).2 ⟨by simpa using hb1, by norm_num [p]⟩
    have hh : Dbl.le (.fin (1 / 2)) (p.high w) = true :=
      (le_high p w _).2 ⟨by simpa using hb2, by norm_num [p]⟩
    have hopt : Dbl.le (p.low w) (p.high w) = true := by
      by_contra hc
      exact hn (by simpa using hc) _ ⟨hl, hh⟩
    refine ⟨hopt, ?_⟩
    obtain ⟨⟨-, h1⟩, h2⟩ := ho hopt
    have h3 : (1 / 2 : ℚ) ≤ p.value w := h2 _ hl hh
    have h4 : 2 * p.value w ≤ 1 := ((le_high p w _).1 h1).2
    have h5 : p.value w = 1 / 2 := by linarith
    show Outcome.ok [0, p.value w] = _
    rw [h5]
  have hfrac : p.data.solutionIsIntegral [0, 1 / 2] ({} : Params).tol = .ok false := by decide +kernel
  have hshape := (primalShape hr (.random dir) draw).2
  have hresp : Responsive o p.data {} := by
    refine ⟨?_, fun w => ⟨w, rfl⟩, fun w _ => ⟨w, rfl⟩, fun w _ => ⟨_, rfl⟩, ?_⟩
    · intro w j hj l u
      rw [integerVariables hr] at hj
      exact ⟨_, if_pos hj⟩
    · intro w values hv hi
      have hlen : p.data.lower.length = 2 := by rw [hr.lower]; rfl
      exact ⟨w, 0, _, hbranch w, by omega, by omega⟩
  have inv : ∀ s, Reach o p.data {} (initial p.start) s → ∃ bs sols,
      Inv p.data Good id s bs sols ∧ bs ≠ [] ∧ ∀ b ∈ bs, ∀ y, b 1 y := by
    intro s h
    induction h with
    | refl =>
      obtain ⟨b, hb, hi⟩ := inv_init (d := p.data) (startsAt hr).1 (startsAt hr).2
      exact ⟨_, _, hi, by simp, by simpa using fun y => hb 1 y⟩
    | step _ hs ih =>
      obtain ⟨bs, sols, hi, hne, hall⟩ := ih
      obtain ⟨bs', sols', hi', ht⟩ := (iterate_trans hdd hshape hc hi).1 _ hs
      refine ⟨bs', sols', hi', ?_⟩
      cases ht with
      | drop h1 h2 h3 h4 =>
        have := (half _ _ (hall _ (h1.mem_iff.2 (by simp))) h3).1
        rw [this] at h4; cases h4
      | record h1 h2 h3 h4 h5 h6 =>
        have := (half _ _ (hall _ (h1.mem_iff.2 (by simp))) h3).2
        rw [this] at h5
        have h5 := Outcome.ok.inj h5
        subst h5
        rw [hfrac] at h6; cases h6
      | split h1 h2 h3 h4 h5 h6 h7 h8 =>
        rw [hbranch] at h7
        simp only [Outcome.ok.injEq, Prod.mk.injEq] at h7
        obtain ⟨-, h7, -⟩ := h7
        refine ⟨by simp, ?_⟩
        rename_i b bs1 w w' values col up v
        obtain rfl : col = 0 := by omega
        intro b' hb' y
        have hchild : ∀ dn, childBox b 0 v dn 1 y := fun dn =>
          ⟨hall b (h1.mem_iff.2 (by simp)) y, fun h => by omega⟩
        simp only [List.cons_append, List.mem_cons, List.mem_append, List.not_mem_nil, or_false] at hb'
        rcases hb' with rfl | hb' | rfl
        · exact hchild _
        · exact hall b' (h1.mem_iff.2 (by simp [hb'])) y
        · exact hchild _
  have again : ∀ s, Reach o p.data {} (initial p.start) s → ∃ s', iterate o p.data {} s = .ok (.again s') := by
    intro s h
    obtain ⟨bs, sols, hi, hne, hall⟩ := inv s h
    obtain ⟨-, hstop, herr⟩ := iterate_trans (prm := {}) hdd hshape hc hi
    have hroot : ∀ w, (∀ x, InBounds p.data id w x ↔ InRootBounds p.data x) →
        o.isOptimal w = true ∧ o.primal w = .ok [0, 1 / 2] := fun w hx =>
      half (fun _ _ => True) w (fun _ => trivial) (fun x => by
        rw [hx x]; exact ⟨fun h => ⟨h, fun _ _ => trivial⟩, fun h => h.1⟩)
    rcases C38_never_aborts hdd hshape hresp h with ⟨res, hres⟩ | hres
    · cases res with
      | again s' => exact ⟨s', hres⟩
      | stop s' =>
        obtain ⟨sols', -, hf⟩ := hstop s' hres
        cases hf with
        | empty => exact absurd rfl hne
        | root _ hx _ hv hint =>
          rw [(hroot _ hx).2] at hv
          have hv := Outcome.ok.inj hv
          subst hv
          rw [hfrac] at hint; cases hint
    · obtain ⟨w, -, hopt, hx⟩ := herr _ hres
      rw [(hroot w hx).1] at hopt; cases hopt
  intro fuel
  have gen : ∀ fuel s, Reach o p.data {} (initial p.start) s → solveFuel o p.data {} fuel s = none := by
    intro fuel
    induction fuel with
    | zero => intro s _; rfl
    | succ n ih =>
      intro s h
      obtain ⟨s', hs'⟩ := again s h
      unfold solveFuel
      rw [hs']
      exact ih s' (h.step hs')
  exact gen fuel _ .refl

/-! ## C39 -/

variable {W : Type}

/-- The iteration from `s` looks at the node `node`. -/
def Visits (s : State W) (node : Int) (rest : List Int) : Prop :=
  if s.backjump then s.queue = rest ++ [node] else s.queue = node :: rest

/-- The iteration from `s` finds the LP of its node (not the root) not optimal, and goes on
with `s'`. -/
def InfeasibleStep (o : Oracle W) (d : MipData) (prm : Params) (s s' : State W) : Prop :=
  iterate o d prm s = .ok (.again s') ∧ ∃ node rest lb ub w, Visits s node rest ∧
    s.tree.retrieveLower node d.lower = .ok lb ∧ s.tree.retrieveUpper node d.upper = .ok ub ∧
    solveNode o d lb ub s.world = .ok w ∧ o.isOptimal w = false

/-- `k` infeasible nodes in a row. -/
inductive InfeasibleRun (o : Oracle W) (d : MipData) (prm : Params) : Nat → State W → State W → Prop
  | nil {s} : InfeasibleRun o d prm 0 s s
  | snoc {k s s' s''} : InfeasibleRun o d prm k s s' → InfeasibleStep o d prm s' s'' →
      InfeasibleRun o d prm (k + 1) s s''

theorem visits_pop {s : State W} {node : Int} {rest : List Int} (h : Visits s node rest) :
    pop s.backjump s.queue = some (node, rest) := by
  unfold Visits at h
  unfold pop
  split at h <;> rename_i hb
  · rw [if_pos hb, h]; simp
  · rw [if_neg hb, h]

theorem infeasibleStep_eq {o : Oracle W} {d : MipData} {prm : Params} {s s' : State W}
    (h : InfeasibleStep o d prm s s') :
    if s.infeasible + 1 > prm.backtrackLimit then s'.backjump = true ∧ s'.infeasible = 0
    else s'.backjump = false ∧ s'.infeasible = s.infeasible + 1 := by
  obtain ⟨hi, node, rest, lb, ub, w, hv, hl, hu, hw, hopt⟩ := h
  unfold iterate at hi
  simp only [visits_pop hv, hl, hu, hw, Outcome.bind_ok, hopt, Bool.false_eq_true, if_false] at hi
  unfold infeasibleNode at hi
  split at hi
  · cases hi
  · rw [Outcome.bind_eq_ok] at hi
    obtain ⟨tree, -, hi⟩ := hi
    dsimp only at hi
    split at hi <;> rename_i hk <;>
      simp only [Outcome.pure_eq, Outcome.ok.injEq, Step.again.injEq] at hi <;> subst hi
    · rw [if_pos hk]; simp
    · rw [if_neg hk]; simp

/-- The iteration from `s` finds the LP of its node optimal, and goes on with `s'`. -/
def OptimalStep (o : Oracle W) (d : MipData) (prm : Params) (s s' : State W) : Prop :=
  iterate o d prm s = .ok (.again s') ∧ ∃ node rest lb ub w, Visits s node rest ∧
    s.tree.retrieveLower node d.lower = .ok lb ∧ s.tree.retrieveUpper node d.upper = .ok ub ∧
    solveNode o d lb ub s.world = .ok w ∧ o.isOptimal w = true

/-- The last node looked at, if any, was not infeasible. -/
def Fresh (o : Oracle W) (d : MipData) (prm : Params) (s : State W) : Prop :=
  (∃ w, s = initial w) ∨ ∃ s₀, OptimalStep o d prm s₀ s

theorem fresh_counter {o : Oracle W} {d : MipData} {prm : Params} {s : State W}
    (h : Fresh o d prm s) : s.infeasible = 0 := by
  rcases h with ⟨w, rfl⟩ | ⟨s₀, hi, node, rest, lb, ub, w, hv, hl, hu, hw, hopt⟩
  · rfl
  · unfold iterate at hi
    simp only [visits_pop hv, hl, hu, hw, Outcome.bind_ok, hopt, if_true] at hi
    unfold optimalNode at hi
    simp only [Outcome.bind_eq_ok] at hi
    obtain ⟨tree, -, values, -, b, -, hi⟩ := hi
    split at hi
    · split at hi <;> simp only [Outcome.pure_eq, Outcome.ok.injEq] at hi <;> cases hi
      rfl
    · unfold branchNode at hi
      simp only [Outcome.bind_eq_ok] at hi
      obtain ⟨r, -, v, -, r1, -, r2, -, hi⟩ := hi
      simp only [Outcome.pure_eq, Outcome.ok.injEq] at hi
      cases hi
      rfl

/-- **C39, what holds.**  With a limit of at least 0, after `k ≥ 1` infeasible nodes in a row (and
before them the start of the search or a node that was not infeasible), the next node is taken
from the back of the queue if `k` is a multiple of `limit + 1`, and from the front otherwise: in
particular `limit` infeasible nodes in a row do not make the search jump back, and
`limit + 1` do.

Missing for C39: the back of the queue is not the top of the tree
(`C39_back_is_not_top_violated`), and the limit −1 does the opposite of what is documented
(`C39_minus_one_violated`). -/
theorem C39_backtrack_limit_partial {o : Oracle W} {d : MipData} {prm : Params}
    (hlim : 0 ≤ prm.backtrackLimit) {k : Nat} {s s' : State W} (h0 : Fresh o d prm s)
    (h : InfeasibleRun o d prm k s s') (hk : 0 < k) :
    if prm.backtrackLimit + 1 ∣ (k : Int) then
      ∀ node rest, Visits s' node rest ↔ s'.queue = rest ++ [node]
    else ∀ node rest, Visits s' node rest ↔ s'.queue = node :: rest := by
  have key : ∀ k s', InfeasibleRun o d prm k s s' →
      s'.infeasible = (k : Int) % (prm.backtrackLimit + 1) ∧
      (0 < k → s'.backjump = decide (prm.backtrackLimit + 1 ∣ (k : Int))) := by
    clear h
    intro k s' h
    induction h with
    | nil => exact ⟨by simpa using fresh_counter h0, by simp⟩
    | snoc h hs ih =>
      rename_i k' s1 s2 s3
      by_cases hk' : k' = 0 ∨ 0 < k'
      · obtain ⟨h1, -⟩ := ih h0
        have hst := infeasibleStep_eq hs
        have hlt := Int.emod_lt_of_pos (k' : Int) (show 0 < prm.backtrackLimit + 1 by omega)
        have hge := Int.emod_nonneg (k' : Int) (show prm.backtrackLimit + 1 ≠ 0 by omega)
        have hdm := Int.emod_add_mul_ediv (k' : Int) (prm.backtrackLimit + 1)
        push_cast
        split at hst <;> rename_i hc
        · have hm : (k' : Int) % (prm.backtrackLimit + 1) = prm.backtrackLimit := by omega
          have hd : prm.backtrackLimit + 1 ∣ (k' : Int) + 1 :=
            ⟨(k' : Int) / (prm.backtrackLimit + 1) + 1, by rw [mul_add]; omega⟩
          refine ⟨by rw [hst.2, Int.emod_eq_zero_of_dvd hd], fun _ => by rw [hst.1]; simp [hd]⟩
        · have hm : ((k' : Int) + 1) % (prm.backtrackLimit + 1) =
              (k' : Int) % (prm.backtrackLimit + 1) + 1 := by
            rw [← Int.emod_add_emod]
            exact Int.emod_eq_of_lt (by omega) (by omega)
          have hd : ¬ prm.backtrackLimit + 1 ∣ (k' : Int) + 1 := by
            intro hd
            have := Int.emod_eq_zero_of_dvd hd
            omega
          refine ⟨by rw [hst.2, hm, h1], fun _ => by rw [hst.1]; simp [hd]⟩
      · omega
  obtain ⟨-, h2⟩ := key k s' h
  have h2 := h2 hk
  split <;> rename_i hd
  · intro node rest; simp [Visits, h2, hd]
  · intro node rest; simp [Visits, h2, hd]

/-- An LP solver that follows a script: each solve takes the next entry, `none` for an
infeasible LP, `some v` for an optimal solution with value `v` of the integer column. -/
def scripted : Oracle (Option ℚ × List (Option ℚ)) where
  setBounds := fun w _ _ _ => .ok w
  solve := fun w => match w.2 with
    | [] => .ok (none, [])
    | a :: r => .ok (a, r)
  isOptimal := fun w => w.1.isSome
  separate := .ok
  objective := fun _ => .fin 0
  primal := fun w => .ok [0, w.1.getD 0]
  branch := fun w =>
    (Branching.maxFractional (-1) .unspecified (1 / 1000000) [1] (.ok [0, w.1.getD 0])).bind
      fun r => .ok (w, r.1, r.2)

/-- The states after a number of iterations that go on. -/
def iterates (o : Oracle W) (d : MipData) (prm : Params) : Nat → State W → Option (State W)
  | 0, s => some s
  | n + 1, s =>
    match iterate o d prm s with
    | .ok (.again s) => iterates o d prm n s
    | _ => none

/-- `min x`, `0 ≤ x ≤ 9` integer. -/
def wide : Line := { l := 0, u := 9, a := 0, b := 18 }

theorem iterates_reach {o : Oracle W} {d : MipData} {prm : Params} {s₀ s : State W} {n : Nat}
    (h : iterates o d prm n s₀ = some s) : Reach o d prm s₀ s := by
  have gen : ∀ n s₁, Reach o d prm s₀ s₁ → iterates o d prm n s₁ = some s → Reach o d prm s₀ s := by
    intro n
    induction n with
    | zero => intro s₁ hr h; simp only [iterates, Option.some.injEq] at h; rwa [← h]
    | succ n ih =>
      intro s₁ hr h
      unfold iterates at h
      split at h
      · rename_i s2 hi; exact ih s2 (hr.step hi) h
      · cases h
  exact gen n s₀ .refl h

/-- **C39 fails: the node taken after the limit is not at the top.**  With the default limit
2: four levels of branching, then three infeasible nodes in a row (a state `s` reachable with
these answers); `Solve` then takes from the back of the queue a node of depth 4 although a
node of depth 3 is open. -/
theorem C39_back_is_not_top_violated :
    ∃ (d : MipData) (w : Option ℚ × List (Option ℚ)) (s : State (Option ℚ × List (Option ℚ)))
      (node other : Int) (rest : List Int),
      DataOk d ∧ Reach scripted d {} (initial w) s ∧ s.infeasible = 0 ∧ s.backjump = true ∧
      w.2 = [some (1 / 2), some (3 / 2), some (5 / 2), some (7 / 2), none, none, none] ∧ s.world.2 = [] ∧
      Visits s node rest ∧ other ∈ rest ∧
      ∃ dn dother, s.tree.node node = .ok dn ∧ s.tree.node other = .ok dother ∧
        dn.depth = 4 ∧ dother.depth = 3 := by
  have hr : wide.data.Represents wide.problem := represents (by norm_num [wide]) (by norm_num [wide])
  let w : Option ℚ × List (Option ℚ) :=
    (none, [some (1 / 2), some (3 / 2), some (5 / 2), some (7 / 2), none, none, none])
  have h : ((iterates scripted wide.data {} 7 (initial w)).map fun s =>
      decide (s.infeasible = 0 ∧ s.backjump = true ∧ s.queue = [5, 7] ∧ s.world = (none, []) ∧
        (s.tree.node 7).bind (fun d => .ok d.depth) = .ok 4 ∧
        (s.tree.node 5).bind (fun d => .ok d.depth) = .ok 3)) = some true := by decide +kernel
  rw [Option.map_eq_some_iff] at h
  obtain ⟨s, hs, he⟩ := h
  simp only [decide_eq_true_eq] at he
  obtain ⟨e1, e2, e3, e4, e5, e6⟩ := he
  have e5 : (s.tree.node 7 >>= fun d => Outcome.ok d.depth) = .ok 4 := e5
  have e6 : (s.tree.node 5 >>= fun d => Outcome.ok d.depth) = .ok 3 := e6
  rw [Outcome.bind_eq_ok] at e5 e6
  obtain ⟨dn, h7, e5⟩ := e5
  obtain ⟨dother, h5, e6⟩ := e6
  exact ⟨wide.data, w, s, 7, 5, [5], dataOk_of_represents hr, iterates_reach hs, e1, e2, rfl,
    by rw [e4], by unfold Visits; rw [e2, e3]; rfl, by simp, dn, dother, h7, h5,
    Outcome.ok.inj e5, Outcome.ok.inj e6⟩

/-- The counter of infeasible nodes is never negative. -/
theorem reach_counter {o : Oracle W} {d : MipData} {prm : Params} {w : W} {s : State W}
    (h : Reach o d prm (initial w) s) : 0 ≤ s.infeasible := by
  induction h with
  | refl => simp [initial]
  | step _ hi ih =>
    unfold iterate at hi
    split at hi
    · cases hi
    · simp only [Outcome.bind_eq_ok] at hi
      obtain ⟨lb, -, ub, -, w', -, hi⟩ := hi
      split at hi
      · unfold optimalNode at hi
        simp only [Outcome.bind_eq_ok] at hi
        obtain ⟨tree, -, values, -, b, -, hi⟩ := hi
        split at hi
        · split at hi <;> simp only [Outcome.pure_eq, Outcome.ok.injEq] at hi <;> cases hi
          simp
        · unfold branchNode at hi
          simp only [Outcome.bind_eq_ok] at hi
          obtain ⟨r, -, v, -, r1, -, r2, -, hi⟩ := hi
          simp only [Outcome.pure_eq, Outcome.ok.injEq] at hi
          cases hi
          simp
      · unfold infeasibleNode at hi
        split at hi
        · cases hi
        · rw [Outcome.bind_eq_ok] at hi
          obtain ⟨tree, -, hi⟩ := hi
          dsimp only at hi
          split at hi <;> simp only [Outcome.pure_eq, Outcome.ok.injEq] at hi <;> cases hi <;> simp
          omega

/-- **C39 fails for −1**, which should mean never to back-jump because of infeasibility: with
the limit −1 every infeasible node of every search makes the next node be taken from the
back of the queue. -/
theorem C39_minus_one_violated {o : Oracle W} {d : MipData} {prm : Params} {w : W}
    (hlim : prm.backtrackLimit = -1) {s s' : State W} (hr : Reach o d prm (initial w) s)
    (h : InfeasibleStep o d prm s s') :
    s'.backjump = true ∧ ∀ node rest, Visits s' node rest ↔ s'.queue = rest ++ [node] := by
  have h0 := reach_counter hr
  have := infeasibleStep_eq h
  rw [if_pos (by omega)] at this
  exact ⟨this.1, fun node rest => by simp [Visits, this.1]⟩

/-- Such an iteration exists: the second node of the scripted search is infeasible.  With the
limit 2, this is an infeasible run of length 1 after a node that was not infeasible. -/
example : ∀ limit : Int, limit = -1 ∨ limit = 2 →
    ∃ (d : MipData) (w : Option ℚ × List (Option ℚ)) (s s' : State (Option ℚ × List (Option ℚ))),
      Reach scripted d { backtrackLimit := limit } (initial w) s ∧
      Fresh scripted d { backtrackLimit := limit } s ∧
      InfeasibleStep scripted d { backtrackLimit := limit } s s' ∧
      InfeasibleRun scripted d { backtrackLimit := limit } 1 s s' := by
  intro limit hlimit
  let w : Option ℚ × List (Option ℚ) := (none, [some (1 / 2), none])
  have h : ((iterates scripted wide.data { backtrackLimit := limit } 1 (initial w)).map fun s =>
      decide (s.infeasible = 0 ∧ s.backjump = false ∧ s.queue = [2, 1] ∧
        s.world = (some (1 / 2), [none]) ∧
        s.tree.retrieveLower 2 wide.data.lower = .ok [.fin 0, .fin 1] ∧
        s.tree.retrieveUpper 2 wide.data.upper = .ok [.fin 1, .fin 9])) = some true := by
    rcases hlimit with rfl | rfl <;> decide +kernel
  rw [Option.map_eq_some_iff] at h
  obtain ⟨s, hs, he⟩ := h
  simp only [decide_eq_true_eq] at he
  obtain ⟨e1, e2, e3, e4, e5, e6⟩ := he
  have hs2 : ∃ s', iterate scripted wide.data { backtrackLimit := limit } s = .ok (.again s') := by
    have h2 : (iterates scripted wide.data { backtrackLimit := limit } 2 (initial w)).isSome = true := by
      rcases hlimit with rfl | rfl <;> decide +kernel
    unfold iterates at hs h2
    split at hs
    · rename_i s₁ hi
      simp only [iterates, Option.some.injEq] at hs
      subst hs
      simp only [hi] at h2
      unfold iterates at h2
      split at h2
      · rename_i s2 hi2; exact ⟨s2, hi2⟩
      · cases h2
    · cases hs
  obtain ⟨s', hs'⟩ := hs2
  have hstep : InfeasibleStep scripted wide.data { backtrackLimit := limit } s s' := by
    refine ⟨hs', 2, [1], _, _, (none, []), by unfold Visits; rw [e2, e3]; rfl, e5, e6, ?_, rfl⟩
    rw [e4]
    decide +kernel
  have hfirst : iterate scripted wide.data { backtrackLimit := limit } (initial w) =
      .ok (.again s) := by
    unfold iterates at hs
    split at hs
    · rename_i s₁ hi
      simp only [iterates, Option.some.injEq] at hs
      rw [hi, hs]
    · cases hs
  have hfresh : Fresh scripted wide.data { backtrackLimit := limit } s :=
    .inr ⟨initial w, hfirst, 0, [], wide.data.lower, wide.data.upper, (some (1 / 2), [none]), rfl,
      by decide +kernel, by decide +kernel, by decide +kernel, rfl⟩
  exact ⟨wide.data, w, s, s', iterates_reach hs, hfresh, hstep, .snoc .nil hstep⟩

/-! ## C41 -/

/-- **C41 fails.**  However the member function `Solve` ends, in particular when it succeeds,
the free function `Solve` does not return a result. -/
theorem C41_free_solve_violated (run : Outcome (State W)) (r : SolveResult) :
    freeSolve run ≠ .ok r := by
  cases run <;> simp [freeSolve, statusToResult]

/-- **C41, what holds.**  When the member function fails, the free function returns its error;
when it succeeds, it returns an error too. -/
theorem C41_errors_partial :
    (∀ m, freeSolve (.error m : Outcome (State W)) = .error m) ∧
    ∀ s : State W, ∃ m, freeSolve (.ok s) = .error m :=
  ⟨fun _ => rfl, fun _ => ⟨_, rfl⟩⟩

end Solver
end MiniMip
