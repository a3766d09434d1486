import Verif.Props.ProgramUnread
import Verif.Props.IeeeProgramSelector
import Verif.Props.IeeeCutOff

/-!
# C118: how many LPs a run solves, and how many cuts it adds

The counter of rounds of the cut runner (cuts_runner.h:73) is never reset, so `max_iterations` limits the rounds of the whole
run.  Every iteration of `Solve` (solver.cc:36-152) solves one LP for its node (line 75), and every round solves one more
(default_runner.cc:113).
-/

namespace MiniMip
namespace Runner

variable {W : Type}

/-- Plug-ins that solve no LP and add no row behind the runner's back, generators that return at most `N` cuts, and a selector
that returns no more cuts than it gets.  `solves` and `rows` are what is counted. -/
structure Thrifty (pl : Plugins W) (solves rows : W → Nat) (N : Nat) : Prop where
  generate : ∀ g ∈ pl.generators, ∀ w reg w' cuts, g w reg = .ok (w', cuts) →
    solves w' = solves w ∧ rows w' = rows w ∧ cuts.length ≤ N
  select : ∀ w reg cuts w' out, pl.select w reg cuts = .ok (w', out) →
    solves w' = solves w ∧ rows w' = rows w ∧ out.length ≤ cuts.length
  addRow : ∀ w row w', pl.addRow w row = .ok w' → solves w' = solves w ∧ rows w' = rows w + 1
  solve : ∀ w w', pl.solve w = .ok w' → solves w' = solves w + 1 ∧ rows w' = rows w

theorem addAll_counts {r r' : Runner W} {l : List CutData} {is : List Int} (h : addAll r l = .ok (r', is)) :
    is.length = l.length ∧ r'.registry.cuts.length = r.registry.cuts.length + l.length ∧ r'.world = r.world ∧
      r'.numCutrounds = r.numCutrounds := by
  induction l generalizing r r' is with
  | nil => cases h; exact ⟨rfl, rfl, rfl, rfl⟩
  | cons c l ih =>
    simp only [addAll, Outcome.bind_eq_ok] at h
    obtain ⟨⟨reg, i⟩, h1, ⟨r1, is1⟩, h2, h3⟩ := h
    cases h3
    obtain ⟨k1, k2, k3, k4⟩ := ih h2
    simp only [CutRegistry.addCut, Outcome.bind_eq_ok] at h1
    obtain ⟨j, -, h1⟩ := h1
    cases h1
    refine ⟨by simp [k1], ?_, k3, k4⟩
    rw [k2]
    simp only [List.length_append, List.length_cons, List.length_nil]
    omega

theorem generate_counts {pl : Plugins W} {solves rows : W → Nat} {N : Nat} (ht : Thrifty pl solves rows N)
    {gs : List (W → CutRegistry → Outcome (W × List CutData))} (hgs : ∀ g ∈ gs, g ∈ pl.generators) {r r' : Runner W}
    {is : List Int} (h : generate pl r gs = .ok (r', is)) :
    is.length ≤ gs.length * N ∧ r'.registry.cuts.length = r.registry.cuts.length + is.length ∧
      solves r'.world = solves r.world ∧ rows r'.world = rows r.world ∧ r'.numCutrounds = r.numCutrounds := by
  induction gs generalizing r r' is with
  | nil => cases h; simp
  | cons g gs ih =>
    simp only [generate, Outcome.bind_eq_ok] at h
    obtain ⟨⟨w, cuts⟩, h1, h⟩ := h
    obtain ⟨g1, g2, g3⟩ := ht.generate g (hgs g (by simp)) _ _ _ _ h1
    have hgs' : ∀ g ∈ gs, g ∈ pl.generators := fun g hg => hgs g (by simp [hg])
    simp only at h
    split at h
    · obtain ⟨k1, k2, k3, k4, k5⟩ := ih hgs' h
      refine ⟨?_, k2, k3.trans g1, k4.trans g2, k5⟩
      rw [List.length_cons, Nat.succ_mul]; omega
    · simp only [Outcome.bind_eq_ok] at h
      obtain ⟨⟨w2, filtered⟩, h2, ⟨r2, is2⟩, h3, ⟨r3, is3⟩, h4, h5⟩ := h
      cases h5
      obtain ⟨f1, f2, f3⟩ := ht.select _ _ _ _ _ h2
      obtain ⟨a1, a2, a3, a4⟩ := addAll_counts h3
      obtain ⟨k1, k2, k3, k4, k5⟩ := ih hgs' h4
      simp only at a1 a2 a3 a4 f1 f2 f3 g3 k1 k2 k3 k4 k5
      rw [a3] at k3 k4
      refine ⟨?_, ?_, k3.trans (f1.trans g1), k4.trans (f2.trans g2), k5.trans a4⟩
      · simp only [List.length_cons, Nat.succ_mul, List.length_append]; omega
      · simp only [List.length_append]; omega

theorem addRows_counts {pl : Plugins W} {solves rows : W → Nat} {N : Nat} (ht : Thrifty pl solves rows N)
    {is : List Int} {r r' : Runner W} (h : addRows pl r is = .ok r') :
    solves r'.world = solves r.world ∧ rows r'.world = rows r.world + is.length ∧ r'.registry = r.registry ∧
      r'.numCutrounds = r.numCutrounds := by
  induction is generalizing r with
  | nil => cases h; simp
  | cons i is ih =>
    simp only [addRows, Outcome.bind_eq_ok] at h
    obtain ⟨c, -, w, h1, h⟩ := h
    obtain ⟨k1, k2⟩ := ht.addRow _ _ _ h1
    obtain ⟨g1, g2, g3, g4⟩ := ih h
    simp only at g1 g2 g3 g4
    exact ⟨g1.trans k1, by rw [g2, k2, List.length_cons]; omega, g3, g4⟩

/-- What is counted, after the runner has been called: `base` LPs were solved for other reasons, and the LP had `n` rows. -/
structure Counted (p : RunnerParams) (solves rows : W → Nat) (M base n : Nat) (r : Runner W) : Prop where
  solves : (solves r.world : Int) = base + r.numCutrounds
  nonneg : 0 ≤ r.numCutrounds
  rounds : r.numCutrounds ≤ max 0 p.maxIterations
  cuts : r.registry.cuts.length ≤ r.numCutrounds.toNat * M
  rows : rows r.world = n + r.registry.cuts.length

theorem separateFuel_counts {p : RunnerParams} {pl : Plugins W} {solves rows : W → Nat} {N : Nat}
    (ht : Thrifty pl solves rows N) {base n fuel : Nat} {r r' : Runner W}
    (hr : Counted p solves rows (pl.generators.length * N) base n r)
    (h : separateFuel p pl fuel r = some (.ok r')) : Counted p solves rows (pl.generators.length * N) base n r' := by
  induction fuel generalizing r with
  | zero => simp [separateFuel] at h
  | succ fuel ih =>
    unfold separateFuel at h
    split at h
    swap
    · cases h; exact hr
    rename_i hmay
    have hlt : r.numCutrounds < p.maxIterations := by
      by_contra hge
      unfold mayRun at hmay
      simp [not_lt.1 hge] at hmay
    cases hro : round pl r with
    | ok a =>
      rw [hro] at h
      obtain ⟨r1, again⟩ := a
      simp only [round, Outcome.bind_eq_ok] at hro
      obtain ⟨⟨r2, is⟩, h1, h2⟩ := hro
      obtain ⟨k1, k2, k3, k4, k5⟩ := generate_counts ht (fun _ h => h) h1
      simp only at h2
      split at h2
      · rename_i hempty
        have his : is = [] := by simpa using hempty
        subst his
        simp only [Outcome.pure_eq, Outcome.ok.injEq, Prod.mk.injEq] at h2
        obtain ⟨rfl, rfl⟩ := h2
        cases h
        simp only [List.length_nil, Nat.add_zero] at k2
        exact ⟨by rw [k3, k5]; exact hr.solves, by rw [k5]; exact hr.nonneg, by rw [k5]; exact hr.rounds,
          by rw [k2, k5]; exact hr.cuts, by rw [k4, k2]; exact hr.rows⟩
      · simp only [Outcome.bind_eq_ok, Outcome.pure_eq, Outcome.ok.injEq, Prod.mk.injEq] at h2
        obtain ⟨r3, h3, w, h4, rfl, rfl⟩ := h2
        obtain ⟨a1, a2, a3, a4⟩ := addRows_counts ht h3
        obtain ⟨s1, s2⟩ := ht.solve _ _ h4
        have hn := hr.nonneg
        refine ih ⟨?_, ?_, ?_, ?_, ?_⟩ h
        · simp only
          rw [s1, a1, k3, a4, k5]
          have := hr.solves
          push_cast
          omega
        · simp only [a4, k5]; omega
        · simp only [a4, k5]; omega
        · simp only [a3, a4, k5, k2]
          rw [show (r.numCutrounds + 1).toNat = r.numCutrounds.toNat + 1 by omega, Nat.succ_mul]
          have := hr.cuts
          omega
        · simp only [a3, k2]
          rw [s2, a2, k4, hr.rows]
          omega
    | _ => rw [hro] at h; cases h

end Runner

namespace Solver

variable {W : Type}

/-- The states at the head of the loop after `k` iterations. -/
inductive ReachIn (o : Oracle W) (d : MipData) (prm : Params) (s₀ : State W) : Nat → State W → Prop
  | refl : ReachIn o d prm s₀ 0 s₀
  | step {k s s'} : ReachIn o d prm s₀ k s → iterate o d prm s = .ok (.again s') → ReachIn o d prm s₀ (k + 1) s'

/-- An oracle whose calls change what is counted as follows: `C k` says that `k` nodes were solved. -/
structure Counts (o : Oracle W) (C : Nat → W → Prop) : Prop where
  setBounds : ∀ k w j l u w', C k w → o.setBounds w j l u = .ok w' → C k w'
  solve : ∀ k w w', C k w → o.solve w = .ok w' → C (k + 1) w'
  separate : ∀ k w w', C k w → o.separate w = .ok w' → C k w'
  branch : ∀ k w w' col up, C k w → o.branch w = .ok (w', col, up) → C k w'

theorem Counts.node {o : Oracle W} {C : Nat → W → Prop} (hc : Counts o C) {d : MipData} {lb ub : List Dbl} {k : Nat}
    {w w' : W} (hw : C k w) (h : solveNode o d lb ub w = .ok w') : C (k + 1) w' := by
  have happ : ∀ (l : List Int) (w w' : W), C k w → applyBounds o lb ub w l = .ok w' → C k w' := by
    intro l
    induction l with
    | nil => intro w w' hw h; cases h; exact hw
    | cons j l ih =>
      intro w w' hw h
      simp only [applyBounds, Outcome.bind_eq_ok, orAbort_eq_ok] at h
      obtain ⟨a, -, b, -, w1, h1, h2⟩ := h
      exact ih _ _ (hc.setBounds _ _ _ _ _ _ hw h1) h2
  simp only [solveNode, Outcome.bind_eq_ok, orAbort_eq_ok] at h
  obtain ⟨w1, h1, w2, h2, h⟩ := h
  have h3 := hc.solve _ _ _ (happ _ _ _ hw h1) h2
  split at h
  · exact hc.separate _ _ _ h3 (orAbort_eq_ok.1 h)
  · cases h; exact h3

theorem Counts.iterate {o : Oracle W} {C : Nat → W → Prop} (hc : Counts o C) {d : MipData} {prm : Params} {k : Nat}
    {s : State W} (hs : C k s.world) :
    (∀ s', iterate o d prm s = .ok (.again s') → C (k + 1) s'.world) ∧
    ∀ s', iterate o d prm s = .ok (.stop s') → C k s'.world ∨ C (k + 1) s'.world := by
  have key : ∀ res, Solver.iterate o d prm s = .ok res →
      match res with
      | .again s' => C (k + 1) s'.world
      | .stop s' => C k s'.world ∨ C (k + 1) s'.world := by
    intro res h
    unfold Solver.iterate at h
    split at h
    · cases h; exact .inl hs
    · simp only [Outcome.bind_eq_ok] at h
      obtain ⟨lb, -, ub, -, w, hw, h⟩ := h
      have h1 := hc.node hs hw
      split at h
      · simp only [optimalNode, Outcome.bind_eq_ok, orAbort_eq_ok] at h
        obtain ⟨tree, -, values, -, integral, -, h⟩ := h
        split at h
        · split at h
          · cases h; exact .inr h1
          · cases h; exact h1
        · simp only [branchNode, Outcome.bind_eq_ok, orAbort_eq_ok] at h
          obtain ⟨⟨w', col, up⟩, hb, v, -, ⟨t1, i1⟩, -, ⟨t2, i2⟩, -, h⟩ := h
          cases h
          exact hc.branch _ _ _ _ _ h1 hb
      · unfold infeasibleNode at h
        split at h
        · cases h
        · simp only [Outcome.bind_eq_ok] at h
          obtain ⟨tree, -, h⟩ := h
          split at h <;> cases h <;> exact h1
  exact ⟨fun s' h => key _ h, fun s' h => key _ h⟩

theorem Counts.reach {o : Oracle W} {C : Nat → W → Prop} (hc : Counts o C) {d : MipData} {prm : Params}
    {s₀ s : State W} (hs : C 0 s₀.world) {k : Nat} (h : ReachIn o d prm s₀ k s) : C k s.world := by
  induction h with
  | refl => exact hs
  | step _ hi ih => exact (hc.iterate ih).1 _ hi

theorem Counts.ends {o : Oracle W} {C : Nat → W → Prop} (hc : Counts o C) {d : MipData} {prm : Params} {fuel k : Nat}
    {s₀ s : State W} (hs : C k s₀.world) (h : solveFuel o d prm fuel s₀ = some (.ok s)) :
    ∃ j ≤ fuel, C (k + j) s.world := by
  induction fuel generalizing s₀ k with
  | zero => simp [solveFuel] at h
  | succ fuel ih =>
    unfold solveFuel at h
    cases hi : Solver.iterate o d prm s₀ with
    | ok a =>
      rw [hi] at h
      cases a with
      | again s' =>
        obtain ⟨j, h1, h2⟩ := ih ((hc.iterate hs).1 _ hi) h
        exact ⟨j + 1, by omega, by rwa [show k + (j + 1) = k + 1 + j by omega]⟩
      | stop s' =>
        simp only [Option.some.injEq, Outcome.ok.injEq] at h
        subst h
        rcases (hc.iterate hs).2 _ hi with h1 | h1
        · exact ⟨0, by omega, h1⟩
        · exact ⟨1, by omega, h1⟩
    | error m => rw [hi] at h; simp at h
    | abort => rw [hi] at h; simp at h
    | ub => rw [hi] at h; simp at h

theorem ReachIn.lt_of_ends {o : Oracle W} {d : MipData} {prm : Params} {s₀ s : State W} {k fuel : Nat}
    (h : ReachIn o d prm s₀ k s) (hf : solveFuel o d prm fuel s₀ ≠ none) : k < fuel := by
  by_contra hge
  have key : ∀ {k s}, ReachIn o d prm s₀ k s → ∀ n, solveFuel o d prm (k + n) s₀ = solveFuel o d prm n s := by
    intro k s h
    induction h with
    | refl => intro n; rw [Nat.zero_add]
    | @step k s s' _ hi ih =>
      intro n
      rw [show k + 1 + n = k + (n + 1) by omega, ih]
      conv_lhs => unfold solveFuel
      rw [hi]
  have mono : ∀ {n : Nat} {s : State W} {x}, solveFuel o d prm n s = some x → ∀ m, n ≤ m → solveFuel o d prm m s = some x := by
    intro n
    induction n with
    | zero => intro s x h; simp [solveFuel] at h
    | succ n ih =>
      intro s x h m hm
      obtain ⟨m, rfl⟩ : ∃ m', m = m' + 1 := ⟨m - 1, by omega⟩
      unfold solveFuel at h ⊢
      split at h
      · exact ih h m (by omega)
      all_goals exact h
  obtain ⟨x, hx⟩ := Option.ne_none_iff_exists'.1 hf
  have h1 := mono hx k (by omega)
  have h2 := key h 0
  rw [Nat.add_zero, h1] at h2
  simp [solveFuel] at h2

end Solver

namespace HybridSelector

theorem selectLoop_length (s : Sorter) (p : HybridParams) (cuts selected : List CutData) :
    ∀ out, selectLoop s p cuts selected = .ok out → out.length ≤ selected.length + cuts.length := by
  induction hn : cuts.length using Nat.strong_induction_on generalizing cuts selected with
  | _ n ih =>
    intro out hout
    have hw := selectLoop_weak hout
    rw [selectLoop, if_pos hw] at hout
    split at hout
    · cases Outcome.ok.inj hout; omega
    · rename_i d rest hd
      have hlen := (s.perm cuts).length_eq
      rw [hd, List.length_cons] at hlen
      split at hout
      · cases Outcome.ok.inj hout; omega
      · split at hout
        · cases Outcome.ok.inj hout
          rw [List.length_append, List.length_singleton]; omega
        · have hk : (keep p d rest).length ≤ rest.length := List.length_filter_le ..
          have := ih _ (by omega) (keep p d rest) (selected ++ [d]) rfl out hout
          rw [List.length_append, List.length_singleton] at this
          omega

theorem select_length {s : Sorter} {p : HybridParams} {cuts out : List CutData}
    (h : selectCuttingPlanes s p cuts = .ok out) : out.length ≤ cuts.length := by
  simp only [selectCuttingPlanes, Outcome.bind_eq_ok] at h
  obtain ⟨scored, h1, h2⟩ := h
  have h3 := selectLoop_length _ _ _ _ _ h2
  have h4 : ∀ (l m : List CutData), scoreAll p l = .ok m → m.length = l.length := by
    intro l
    induction l with
    | nil => intro m h; cases h; rfl
    | cons c l ih =>
      intro m h
      simp only [scoreAll, Outcome.bind_eq_ok] at h
      obtain ⟨x, -, r, hr, h⟩ := h
      cases h
      simp [ih _ hr]
  rw [h4 _ _ h1, List.length_nil] at h3
  omega

end HybridSelector

namespace Ieee

namespace Selector

theorem selectLoop_length (s : SqrtCode) (t : Sorter) (p : Params) (cuts selected : List CutF) :
    ∀ out, selectLoop s t p cuts selected = .ok out → out.length ≤ selected.length + cuts.length := by
  induction hn : cuts.length using Nat.strong_induction_on generalizing cuts selected with
  | _ n ih =>
    intro out hout
    rw [selectLoop] at hout
    split at hout
    swap
    · cases hout
    split at hout
    · cases Outcome.ok.inj hout; omega
    · rename_i d rest hd
      have hlen := (t.perm cuts).length_eq
      rw [hd, List.length_cons] at hlen
      split at hout
      · cases Outcome.ok.inj hout; omega
      · split at hout
        · cases Outcome.ok.inj hout
          rw [List.length_append, List.length_singleton]; omega
        · have hk : (keep s p d rest).length ≤ rest.length := List.length_filter_le ..
          have := ih _ (by omega) (keep s p d rest) (selected ++ [d]) rfl out hout
          rw [List.length_append, List.length_singleton] at this
          omega

theorem select_length {s : SqrtCode} {t : Sorter} {p : Params} {cuts out : List CutF}
    (h : selectCuttingPlanes s t p cuts = .ok out) : out.length ≤ cuts.length := by
  simp only [selectCuttingPlanes, Outcome.bind_eq_ok] at h
  obtain ⟨scored, h1, h2⟩ := h
  have h3 := selectLoop_length _ _ _ _ _ _ h2
  have h4 : ∀ (l m : List CutF), scoreAll p l = .ok m → m.length = l.length := by
    intro l
    induction l with
    | nil => intro m h; cases h; rfl
    | cons c l ih =>
      intro m h
      simp only [scoreAll, Outcome.bind_eq_ok] at h
      obtain ⟨x, -, r, hr, h⟩ := h
      cases h
      simp [ih _ hr]
  rw [h4 _ _ h1, List.length_nil] at h3
  omega

end Selector

theorem generated_length {c : GenContext} {s : SolverView} {rs : List Generator.Rounder} {limit : Int} {cuts : List Cut}
    (h : generateCuttingPlanes c s rs limit = .ok cuts) : cuts = [] ∨ (cuts.length : Int) < limit + rs.length := by
  unfold generateCuttingPlanes at h
  split at h
  · cases h
  split at h
  · cases h
  obtain ⟨acts, hacts, h⟩ := Outcome.bind_eq_ok.1 h
  obtain ⟨useRhs, hu, h⟩ := Outcome.bind_eq_ok.1 h
  obtain ⟨primal, hprimal, h⟩ := Outcome.bind_eq_ok.1 h
  simp only at h
  split at h
  · cases h
  rcases tableauLoop_count _ h with h1 | h1
  · left
    simpa using h1
  · exact Or.inr h1

end Ieee

namespace Program

theorem ofCutFs_length {l : List Ieee.CutF} {m : List CutData} (h : ofCutFs l = .ok m) : m.length = l.length := by
  induction l generalizing m with
  | nil => cases h; rfl
  | cons c l ih =>
    simp only [ofCutFs, Outcome.bind_eq_ok] at h
    obtain ⟨x, -, r, hr, h⟩ := h
    cases h
    simp [ih hr]

theorem rounders_length (g : Setup.GeneratorConfig) : (rounders g).length ≤ 2 := by
  unfold rounders
  split <;> split <;> simp

/-- Cut generators that solve no LP, add no row and return at most `N` cuts, and a selector that solves no LP, adds no row and
returns no more cuts than it was given. -/
structure Modest (generators : List (World → CutRegistry → Outcome (World × List CutData)))
    (select : World → CutRegistry → List CutData → Outcome (World × List CutData)) (N : Nat) : Prop where
  generate : ∀ g ∈ generators, ∀ w reg w' cuts, g w reg = .ok (w', cuts) →
    w'.solves = w.solves ∧ w'.lp.program.rows.length = w.lp.program.rows.length ∧ cuts.length ≤ N
  select : ∀ w reg cuts w' out, select w reg cuts = .ok (w', out) →
    w'.solves = w.solves ∧ w'.lp.program.rows.length = w.lp.program.rows.length ∧ out.length ≤ cuts.length

/-- What a run of `Solve` has done after `k` iterations: `limit` is the parameter `max_iterations`, `M` bounds the cuts of one
round.  The LPs solved are one for every iteration and one for every round of cuts; there are at most `limit` rounds in the whole
run; the LP consists of the constraints of the problem and the cuts. -/
structure RunCounts (p : Problem) (limit : Int) (M k : Nat) (r : Runner World) : Prop where
  solves : (r.world.solves : Int) = k + r.numCutrounds
  nonneg : 0 ≤ r.numCutrounds
  rounds : r.numCutrounds ≤ max 0 limit
  cuts : r.registry.cuts.length ≤ r.numCutrounds.toNat * M
  rows : r.world.lp.program.rows.length = p.constraints.length + r.registry.cuts.length

theorem thrifty {generators : List (World → CutRegistry → Outcome (World × List CutData))}
    {select : World → CutRegistry → List CutData → Outcome (World × List CutData)} {N : Nat}
    (hm : Modest generators select N) (e : Engine) (c : Setup.Created) :
    Runner.Thrifty (customPlugins e c generators select) (·.solves) (·.lp.program.rows.length) N where
  generate := hm.generate
  select := hm.select
  addRow w row w' h := by
    simp only [customPlugins, plugins, Outcome.bind_eq_ok] at h
    obtain ⟨l, h1, h2⟩ := h
    cases h2
    obtain ⟨name, h3⟩ := addRow_program h1
    have := (Glop.setRow_cols _ _ _ _ h3).1
    refine ⟨rfl, ?_⟩
    simp only
    rw [this]
    simp
  solve w w' h := by
    obtain ⟨h1, -, h2, -⟩ := solve_world (e := e) h
    exact ⟨h2, by rw [h1]⟩

theorem counts {generators : List (World → CutRegistry → Outcome (World × List CutData))}
    {select : World → CutRegistry → List CutData → Outcome (World × List CutData)} {N : Nat}
    (hm : Modest generators select N) (e : Engine) (c : Setup.Created) (p : Problem) :
    Solver.Counts (customOracle e c generators select)
      (RunCounts p c.runner.params.maxIterations (generators.length * N)) where
  setBounds k w j l u w' hw h := by
    obtain ⟨-, -, h1, -, h2⟩ := setBounds_spec (e := e) (c := c) h
    have h3 : w'.world.lp.program.rows.length = w.world.lp.program.rows.length := by rw [h1]; rfl
    rw [h2]
    exact ⟨hw.solves, hw.nonneg, hw.rounds, hw.cuts, h3.trans hw.rows⟩
  solve k w w' hw h := by
    obtain ⟨h1, h2, -, h3⟩ := solve_spec (e := e) (c := c) h
    have h4 := (solve_world h1).2.2.1
    have h5 : w'.numCutrounds = w.numCutrounds := by rw [h3]
    have h6 : w'.registry = w.registry := by rw [h3]
    refine ⟨?_, by rw [h5]; exact hw.nonneg, by rw [h5]; exact hw.rounds, by rw [h5, h6]; exact hw.cuts,
      by rw [h2, h6]; exact hw.rows⟩
    rw [h4, h5]
    have := hw.solves
    push_cast
    omega
  separate k w w' hw h := by
    simp only [customOracle, customSeparate] at h
    split at h
    · rename_i x hx
      subst h
      have hc : Runner.Counted c.runner.params (fun w : World => w.solves) (fun w => w.lp.program.rows.length)
          (generators.length * N) k p.constraints.length w := ⟨hw.solves, hw.nonneg, hw.rounds, hw.cuts, hw.rows⟩
      have := Runner.separateFuel_counts (thrifty hm e c) hc hx
      exact ⟨this.solves, this.nonneg, this.rounds, this.cuts, this.rows⟩
    · cases h
  branch k w w' col up hw h := by
    obtain ⟨h1, h2⟩ := branch_spec (e := e) (c := c) h
    have h3 : w'.world.solves = w.world.solves := by
      simp only [customOracle, oracle, Outcome.bind_eq_ok] at h
      obtain ⟨⟨v, col', up'⟩, h3, h4⟩ := h
      cases h4
      unfold branch at h3
      split at h3 <;> simp only [Outcome.bind_eq_ok] at h3 <;> obtain ⟨x, -, h3⟩ := h3 <;> cases h3 <;> rfl
    rw [h2]
    exact ⟨by simp only [h3]; exact hw.solves, hw.nonneg, hw.rounds, hw.cuts, by simp only [h1]; exact hw.rows⟩

theorem runCounts_start {x : Setup.External} {p : Problem} (hp : p.WellFormed) {user : Setup.ParamsMsg}
    {c : Setup.Created} (h : Setup.create x p user = .ok c) (M : Nat) :
    RunCounts p c.runner.params.maxIterations M 0 { world := { lp := start c.lpi } } :=
  ⟨rfl, le_rfl, le_max_left _ _, by simp, by
    have := (created_refines hp h).2.numRows
    simp only [List.length_nil, Nat.add_zero]
    exact this⟩

theorem created_limit {x : Setup.External} {p : Problem} {user : Setup.ParamsMsg} {c : Setup.Created}
    (h : Setup.create x p user = .ok c) : c.runner.params.maxIterations = user.limit (·.maxIterations) := by
  obtain ⟨-, -, -, h4, -⟩ := Setup.create_ok h
  rw [h4, ← Setup.limit_eq user _ rfl]
  rfl

/-- **C118 (for any plug-ins).**  Cut generators that return at most `N` cuts each and a selector that does not invent cuts, none
of which touches the LP: after `k` iterations of `Solve`, and when it returns, the numbers are as in `RunCounts`. -/
theorem C118_modest_plugins (p : Problem) (hp : p.WellFormed) (e : Engine) (x : Setup.External) (user : Setup.ParamsMsg)
    (c : Setup.Created) (h : Setup.create x p user = .ok c)
    (generators : List (World → CutRegistry → Outcome (World × List CutData)))
    (select : World → CutRegistry → List CutData → Outcome (World × List CutData)) (N : Nat)
    (hm : Modest generators select N) :
    (∀ k s, Solver.ReachIn (customOracle e c generators select) c.data (params c)
        (Solver.initial { world := { lp := start c.lpi } }) k s →
      RunCounts p (user.limit (·.maxIterations)) (generators.length * N) k s.world) ∧
    ∀ fuel s, customSolve e c generators select fuel = some (.ok s) →
      ∃ k ≤ fuel, RunCounts p (user.limit (·.maxIterations)) (generators.length * N) k s.world := by
  rw [← created_limit h]
  refine ⟨fun k s hk => (counts hm e c p).reach (runCounts_start hp h _) hk, fun fuel s hs => ?_⟩
  obtain ⟨j, hj, h1⟩ := (counts hm e c p).ends (runCounts_start hp h _) hs
  exact ⟨j, hj, by rwa [Nat.zero_add] at h1⟩

theorem modest_plugins (e : Engine) (c : Setup.Created) (N : Nat) (hN : ∀ g ∈ c.runner.generators, g.maxNumCuts + 1 ≤ N) :
    Modest (plugins e c).generators (plugins e c).select N where
  generate := by
    intro g hg w reg w' cuts h
    simp only [plugins, List.mem_map] at hg
    obtain ⟨g, hg, rfl⟩ := hg
    simp only [Outcome.bind_eq_ok] at h
    obtain ⟨l, h1, h2⟩ := h
    cases h2
    refine ⟨rfl, rfl, ?_⟩
    have := rounders_length g
    have := hN g hg
    rcases ((Generator.C32_max_num_cuts_partial _ _ _ _).1 _ h1).2.1 with h3 | h3
    · simp [h3]
    · omega
  select := by
    intro w reg cuts w' out h
    simp only [plugins, Outcome.bind_eq_ok] at h
    obtain ⟨l, h1, h2⟩ := h
    cases h2
    exact ⟨rfl, rfl, HybridSelector.select_length h1⟩

theorem modest_doublePlugins (s : Ieee.SqrtCode) (t : Ieee.Selector.Sorter) (q : Ieee.Selector.Params) (e : Engine)
    (c : Setup.Created) (N : Nat) (hN : ∀ g ∈ c.runner.generators, g.maxNumCuts + 1 ≤ N) :
    Modest (doublePlugins s t q e c).generators (doublePlugins s t q e c).select N where
  generate := by
    intro g hg w reg w' cuts h
    simp only [doublePlugins, List.mem_map] at hg
    obtain ⟨g, hg, rfl⟩ := hg
    simp only [doubleGenerate, Outcome.bind_eq_ok] at h
    obtain ⟨l, h1, primal, -, m, h2, h3⟩ := h
    cases h3
    refine ⟨rfl, rfl, ?_⟩
    have := rounders_length g
    have := hN g hg
    rw [ofCutFs_length h2, List.length_map]
    rcases Ieee.generated_length h1 with h3 | h3
    · simp [h3]
    · omega
  select := by
    intro w reg cuts w' out h
    simp only [doublePlugins, doubleSelect, Outcome.bind_eq_ok] at h
    obtain ⟨l, h1, m, h2, h3⟩ := h
    cases h3
    refine ⟨rfl, rfl, ?_⟩
    rw [ofCutFs_length h2]
    have := Ieee.Selector.select_length h1
    rwa [List.length_map] at this

/-- **C118.**  A problem that passes validation, any parameters and any LP code, and `N` above the limit of every cut generator:
after `k` iterations of `Solve`, and when it returns, as many LPs have been solved as there were iterations and rounds of cuts,
and `max_iterations` (100 unless the user says otherwise) limits the rounds of the whole run.  Hence it limits the cuts and the
rows of the LP, for the exact numbers and for the doubles of the code. -/
theorem C118_counts (p : Problem) (hp : p.WellFormed) (e : Engine) (x : Setup.External) (user : Setup.ParamsMsg)
    (c : Setup.Created) (h : Setup.create x p user = .ok c) (N : Nat)
    (hN : ∀ g ∈ c.runner.generators, g.maxNumCuts + 1 ≤ N) :
    ((∀ k s, Solver.ReachIn (oracle e c) c.data (params c) (Solver.initial { world := { lp := start c.lpi } }) k s →
        RunCounts p (user.limit (·.maxIterations)) (c.runner.generators.length * N) k s.world) ∧
      ∀ fuel s, solve e c fuel = some (.ok s) →
        ∃ k ≤ fuel, RunCounts p (user.limit (·.maxIterations)) (c.runner.generators.length * N) k s.world) ∧
    ∀ (r : Ieee.SqrtCode) (t : Ieee.Selector.Sorter) (q : Ieee.Selector.Params),
      (∀ k s, Solver.ReachIn (doubleOracle r t q e c) c.data (params c) (Solver.initial { world := { lp := start c.lpi } }) k s →
        RunCounts p (user.limit (·.maxIterations)) (c.runner.generators.length * N) k s.world) ∧
      ∀ fuel s, doubleRun r t q e c fuel = some (.ok s) →
        ∃ k ≤ fuel, RunCounts p (user.limit (·.maxIterations)) (c.runner.generators.length * N) k s.world := by
  refine ⟨?_, fun r t q => ?_⟩
  · have := C118_modest_plugins p hp e x user c h _ _ N (modest_plugins e c N hN)
    rw [show (plugins e c).generators.length = c.runner.generators.length by simp [plugins]] at this
    exact this
  · have := C118_modest_plugins p hp e x user c h _ _ N (modest_doublePlugins r t q e c N hN)
    rw [show (doublePlugins r t q e c).generators.length = c.runner.generators.length by simp [doublePlugins]] at this
    exact this

/-- **C118 (default parameters).**  With nothing said about cuts, a run of `k` iterations solves between `k` and `k + 100` LPs,
and adds at most 10100 rows. -/
theorem C118_default_parameters (p : Problem) (hp : p.WellFormed) (e : Engine) (x : Setup.External) (user : Setup.ParamsMsg)
    (c : Setup.Created) (h : Setup.create x p user = .ok c) (hu : user.cutRunner = none) (r : Ieee.SqrtCode)
    (t : Ieee.Selector.Sorter) (q : Ieee.Selector.Params) (fuel : Nat) (s : Solver.State (Runner World))
    (hs : solve e c fuel = some (.ok s) ∨ doubleRun r t q e c fuel = some (.ok s)) :
    ∃ k ≤ fuel, k ≤ s.world.world.solves ∧ s.world.world.solves ≤ k + 100 ∧
      p.constraints.length ≤ s.world.world.lp.program.rows.length ∧
      s.world.world.lp.program.rows.length ≤ p.constraints.length + 10100 := by
  obtain ⟨-, -, -, h4, -⟩ := Setup.create_ok h
  have hg : c.runner.generators = [⟨100, true, true⟩] := by rw [h4, hu]; rfl
  have hl : user.limit (·.maxIterations) = 100 := by simp [Setup.ParamsMsg.limit, hu]
  obtain ⟨h1, h2⟩ := C118_counts p hp e x user c h 101 (by simp [hg])
  obtain ⟨k, hk, hc⟩ : ∃ k ≤ fuel, RunCounts p (user.limit (·.maxIterations)) (c.runner.generators.length * 101) k s.world := by
    rcases hs with hs | hs
    · exact h1.2 _ _ hs
    · exact (h2 r t q).2 _ _ hs
  rw [hl, hg] at hc
  have a1 := hc.solves
  have a2 := hc.nonneg
  have a3 := hc.rounds
  have a4 := hc.cuts
  have a5 := hc.rows
  simp only [List.length_singleton, Nat.one_mul] at a4
  refine ⟨k, hk, ?_, ?_, ?_, ?_⟩ <;> omega

/-- **C118 (in advance).**  With finite bounds on the integer variables and the rule that branches on fractional variables, the
bounds of the integer variables and `max_iterations` limit the LPs of the run. -/
theorem C118_in_advance (p : Problem) (hp : p.WellFormed) (hf : FiniteIntegers p) (e : Engine) (x : Setup.External)
    (user : Setup.ParamsMsg) (c : Setup.Created) (dir : Setup.Direction) (he : e.Feasible)
    (h : Setup.create x p user = .ok c) (hr : c.rule = .maxFractional dir)
    (htol : 0 ≤ user.integralityTolerance.getD (1 / 10 ^ 6)) :
    (∀ k s, Solver.ReachIn (oracle e c) c.data (params c) (Solver.initial { world := { lp := start c.lpi } }) k s →
      (s.world.world.solves : Int) < iterationBound p + max 0 (user.limit (·.maxIterations))) ∧
    ∀ s, solve e c (iterationBound p) = some (.ok s) →
      (s.world.world.solves : Int) ≤ iterationBound p + max 0 (user.limit (·.maxIterations)) := by
  have hend := C76_ends_partial p hp hf e x user c dir he h hr htol
  obtain ⟨N, hN⟩ : ∃ N : Nat, ∀ g ∈ c.runner.generators, g.maxNumCuts + 1 ≤ N := by
    refine ⟨(c.runner.generators.map fun g => (g.maxNumCuts + 1).toNat).sum, fun g hg => ?_⟩
    have := List.single_le_sum (l := c.runner.generators.map fun g => (g.maxNumCuts + 1).toNat) (by simp) _
      (List.mem_map_of_mem hg)
    omega
  have hc := (C118_counts p hp e x user c h N hN).1
  refine ⟨fun k s hk => ?_, fun s hs => ?_⟩
  · have h1 := hc.1 k s hk
    have h2 := hk.lt_of_ends hend
    have := h1.solves
    have := h1.rounds
    omega
  · obtain ⟨k, hk, h1⟩ := hc.2 _ _ hs
    have := h1.solves
    have := h1.rounds
    omega

/-- A run with a cut: one iteration, and at least two LPs. -/
example : ∃ x c st, Setup.create x thirds {} = .ok c ∧
    doubleRun Ieee.exSqrt Ieee.Selector.exSorter {} perfect.rounded c 1 = some (.ok st) ∧
    thirds.constraints.length < st.world.world.lp.program.rows.length ∧ 1 ≤ st.world.numCutrounds ∧
    st.world.world.solves ≤ 101 := by
  obtain ⟨⟨h1, -⟩, ⟨x, c, hc⟩, h2⟩ := C92_doubles_violated
  obtain ⟨st, h3, -, -, h4⟩ := h2 x c hc Ieee.exSqrt Ieee.Selector.exSorter perfect perfect_spec.1 perfect_spec.2 perfect_basic.1
    perfect_inTime
  obtain ⟨k, hk, -, h5, -⟩ := C118_default_parameters thirds h1 perfect.rounded x {} c hc rfl Ieee.exSqrt Ieee.Selector.exSorter {} 1
    st (.inr h3)
  obtain ⟨-, -, -, hr, -⟩ := Setup.create_ok hc
  obtain ⟨j, -, h6⟩ := ((C118_counts thirds h1 perfect.rounded x {} c hc 101 (by rw [hr]; simp [Setup.createGenerators])).2
    Ieee.exSqrt Ieee.Selector.exSorter {}).2 _ _ h3
  refine ⟨x, c, st, hc, h3, h4, ?_, by omega⟩
  have a := h6.cuts
  have b := h6.rows
  have d := h6.nonneg
  by_contra hn
  rw [show st.world.numCutrounds.toNat = 0 by omega, Nat.zero_mul] at a
  omega

/-- A problem, a solver and LP code that `C118_in_advance` applies to. -/
example : thirds.WellFormed ∧ FiniteIntegers thirds ∧ perfect.Feasible ∧
    ∃ x c dir, Setup.create x thirds {} = .ok c ∧ c.rule = .maxFractional dir := by
  obtain ⟨⟨h1, h2, -⟩, ⟨x, c, hc⟩, -⟩ := C92_doubles_violated
  refine ⟨h1, h2, perfect_spec.1.feasible, x, c, ?_⟩
  obtain ⟨-, -, -, -, -, -, -, ⟨dir, -, -, h⟩, -⟩ := Setup.C58_user_wins_partial x thirds h1 {} c hc
  exact ⟨dir, hc, h (Or.inr rfl)⟩

end Program
end MiniMip
