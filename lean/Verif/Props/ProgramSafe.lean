import Verif.Props.ProgramPlugins
import Verif.Props.ProgramRound
import Verif.Props.ProgramUnread

/-!
# C119: what holds whatever the LP code answers

No assumption on the LP code (`Engine`) is made here: it may claim optimality with any point, report any error, and answer
differently each time.
-/

namespace MiniMip

/-- The call does nothing undefined, and what it returns satisfies `P`. -/
def Outcome.Safe {α : Type} (P : α → Prop) : Outcome α → Prop
  | .ok a => P a
  | .ub => False
  | _ => True

namespace Outcome

variable {α β : Type}

theorem Safe.bind {P : α → Prop} {Q : β → Prop} {x : Outcome α} {f : α → Outcome β} (hx : x.Safe P)
    (hf : ∀ a, x = .ok a → P a → (f a).Safe Q) : (x >>= f).Safe Q := by
  cases x with
  | ok a => exact hf a rfl hx
  | ub => exact hx.elim
  | error m => trivial
  | abort => trivial

theorem Safe.orAbort {P : α → Prop} {x : Outcome α} (hx : x.Safe P) : x.orAbort.Safe P := by
  cases x with
  | ok a => exact hx
  | ub => exact hx
  | error m => trivial
  | abort => trivial

theorem Safe.mono {P Q : α → Prop} {x : Outcome α} (hx : x.Safe P) (h : ∀ a, x = .ok a → P a → Q a) : x.Safe Q := by
  cases x with
  | ok a => exact h a rfl hx
  | ub => exact hx
  | error m => trivial
  | abort => trivial

theorem Safe.ne_ub {P : α → Prop} {x : Outcome α} (hx : x.Safe P) : x ≠ .ub := by rintro rfl; exact hx

theorem Safe.ok {P : α → Prop} {x : Outcome α} (hx : x.Safe P) {a : α} (h : x = .ok a) : P a := by subst h; exact hx

theorem safe_of {P : α → Prop} {x : Outcome α} (h1 : x ≠ .ub) (h2 : ∀ a, x = .ok a → P a) : x.Safe P := by
  cases x with
  | ok a => exact h2 a rfl
  | ub => exact (h1 rfl).elim
  | error m => trivial
  | abort => trivial

theorem safe_check (b : Bool) : (check b).Safe fun _ => True := by cases b <;> trivial

end Outcome

/-! ### The cut runner -/

namespace Runner

variable {W : Type}

/-- Plug-ins that do nothing undefined on worlds in `G`, and produce and keep cuts that `Fits`. -/
structure Tame (pl : Plugins W) (G : W → Prop) (Fits : CutData → Prop) : Prop where
  index : ∀ c i, Fits c → Fits (c.setIndex i)
  generate : ∀ g ∈ pl.generators, ∀ w reg, G w → (g w reg).Safe fun x => G x.1 ∧ ∀ c ∈ x.2, Fits c
  select : ∀ w reg cuts, G w → (∀ c ∈ cuts, Fits c) → (pl.select w reg cuts).Safe fun x => G x.1 ∧ ∀ c ∈ x.2, Fits c
  addRow : ∀ w c name, G w → Fits c → (pl.addRow w ⟨c.row, pl.infinity.neg, .fin c.rhs, name⟩).Safe G
  solve : ∀ w, G w → (pl.solve w).Safe G

/-- The world is in `G`, and the cuts of the registry `Fits`. -/
def Held (G : W → Prop) (Fits : CutData → Prop) (r : Runner W) : Prop := G r.world ∧ ∀ c ∈ r.registry.cuts, Fits c

variable {pl : Plugins W} {G : W → Prop} {Fits : CutData → Prop}

/-- The runner holds, has at least the cuts it had, and the new indices are in range. -/
def After (G : W → Prop) (Fits : CutData → Prop) (r : Runner W) (x : Runner W × List Int) : Prop :=
  Held G Fits x.1 ∧ r.registry.cuts.length ≤ x.1.registry.cuts.length ∧ ∀ i ∈ x.2, 0 ≤ i ∧ i < x.1.registry.cuts.length

theorem addAll_safe (ht : Tame pl G Fits) {l : List CutData} {r : Runner W} (hr : Held G Fits r) (hl : ∀ c ∈ l, Fits c) :
    (addAll r l).Safe (After G Fits r) := by
  induction l generalizing r with
  | nil => exact ⟨hr, le_rfl, by simp⟩
  | cons c l ih =>
    have hadd : (r.registry.addCut c).Safe fun x => x.1.cuts = r.registry.cuts ++ [c.setIndex r.registry.cuts.length] ∧
        x.2 = (r.registry.cuts.length : Int) := by
      simp [CutRegistry.addCut, CutData.setIndex, CutData.getIndex, Outcome.Safe, pure]
    refine hadd.bind fun x hx h => ?_
    obtain ⟨reg, i⟩ := x
    obtain ⟨h1, h2⟩ := h
    simp only at h1 h2
    have hr' : Held G Fits { r with registry := reg } := by
      refine ⟨hr.1, fun d hd => ?_⟩
      simp only [h1, List.mem_append, List.mem_singleton] at hd
      rcases hd with hd | rfl
      · exact hr.2 d hd
      · exact ht.index _ _ (hl c (by simp))
    refine (ih hr' (fun d hd => hl d (by simp [hd]))).bind fun x hx h => ?_
    obtain ⟨r', is⟩ := x
    obtain ⟨g1, g2, g3⟩ := h
    simp only [h1, List.length_append, List.length_singleton] at g2
    refine ⟨g1, by simp only; omega, fun j hj => ?_⟩
    simp only [List.mem_cons] at hj
    rcases hj with rfl | hj
    · simp only; omega
    · exact g3 j hj

theorem generate_safe (ht : Tame pl G Fits) {gs : List (W → CutRegistry → Outcome (W × List CutData))}
    (hgs : ∀ g ∈ gs, g ∈ pl.generators) {r : Runner W} (hr : Held G Fits r) :
    (generate pl r gs).Safe (After G Fits r) := by
  induction gs generalizing r with
  | nil => exact ⟨hr, le_rfl, by simp⟩
  | cons g gs ih =>
    have hgs' : ∀ g ∈ gs, g ∈ pl.generators := fun g hg => hgs g (by simp [hg])
    unfold generate
    refine (ht.generate g (hgs g (by simp)) r.world r.registry hr.1).bind fun x hx h => ?_
    obtain ⟨w, cuts⟩ := x
    simp only
    split
    · exact ih hgs' (r := { r with world := w }) ⟨h.1, hr.2⟩
    · refine (ht.select w r.registry cuts h.1 h.2).bind fun y hy h' => ?_
      refine (addAll_safe ht (r := { r with world := y.1 }) ⟨h'.1, hr.2⟩ h'.2).bind fun z hz h2 => ?_
      obtain ⟨a1, a2, a3⟩ := h2
      refine (ih hgs' a1).bind fun v hv h3 => ?_
      obtain ⟨b1, b2, b3⟩ := h3
      refine ⟨b1, by simp only at a2 ⊢; omega, fun i hi => ?_⟩
      simp only [List.mem_append] at hi
      rcases hi with hi | hi
      · have := a3 i hi
        simp only
        omega
      · exact b3 i hi

theorem addRows_safe (ht : Tame pl G Fits) {is : List Int} {r : Runner W} (hr : Held G Fits r)
    (his : ∀ i ∈ is, 0 ≤ i ∧ i < r.registry.cuts.length) : (addRows pl r is).Safe (Held G Fits) := by
  induction is generalizing r with
  | nil => exact hr
  | cons i is ih =>
    have hget : (r.registry.getCut i).Safe Fits := by
      obtain ⟨h1, h2⟩ := his i (by simp)
      unfold CutRegistry.getCut
      rw [if_neg (by omega)]
      have : i.toNat < r.registry.cuts.length := by omega
      rw [List.getElem?_eq_getElem this]
      exact hr.2 _ (List.getElem_mem _)
    refine hget.bind fun c hc h => ?_
    refine (ht.addRow r.world c c.name hr.1 h).bind fun w hw h' => ?_
    exact ih (r := { r with world := w, lpRows := _ }) ⟨h', hr.2⟩ fun j hj => his j (by simp [hj])

theorem separateFuel_safe (ht : Tame pl G Fits) (p : RunnerParams) {fuel : Nat} {r : Runner W} (hr : Held G Fits r) :
    ∀ x, separateFuel p pl fuel r = some x → x.Safe (Held G Fits) := by
  induction fuel generalizing r with
  | zero => intro x h; simp [separateFuel] at h
  | succ fuel ih =>
    intro x h
    unfold separateFuel at h
    split at h
    swap
    · cases h; exact hr
    have hround : (round pl r).Safe fun y => Held G Fits y.1 := by
      unfold round
      refine (generate_safe ht (fun _ h => h) hr).bind fun y hy h' => ?_
      obtain ⟨a1, -, a3⟩ := h'
      simp only
      split
      · exact a1
      · refine (addRows_safe ht a1 a3).bind fun r' hr' h2 => ?_
        refine (ht.solve _ h2.1).bind fun w hw h3 => ?_
        exact ⟨h3, h2.2⟩
    cases hro : round pl r with
    | ok a =>
      rw [hro] at h hround
      obtain ⟨r1, again⟩ := a
      cases again with
      | true => exact ih hround x h
      | false => cases h; exact hround
    | ub => rw [hro] at hround; exact hround.elim
    | error m => rw [hro] at h; cases h; trivial
    | abort => rw [hro] at h; cases h; trivial

end Runner

/-! ### The loop of `Solve` -/

namespace Solver

variable {W : Type}

/-- The oracle's calls may fail in any defined way; the column to branch on exists. -/
structure Tame (o : Oracle W) (d : MipData) (prm : Params) : Prop where
  setBounds : ∀ w, ∀ j ∈ d.integerVariables, ∀ l u, (o.setBounds w j l u).Safe fun _ => True
  solve : ∀ w, (o.solve w).Safe fun _ => True
  separate : ∀ w, o.isOptimal w = true → (o.separate w).Safe fun _ => True
  primal : ∀ w, (o.primal w).Safe fun _ => True
  branch : ∀ w values, o.primal w = .ok values → d.solutionIsIntegral values prm.tol = .ok false →
    (o.branch w).Safe fun x => 0 ≤ x.2.1 ∧ x.2.1 < (d.lower.length : Int)

theorem applyBounds_safe {o : Oracle W} {d : MipData} {prm : Params} (ho : Tame o d prm)
    {lb ub : List Dbl} (l : List Int)
    (hl : ∀ j ∈ l, j ∈ d.integerVariables ∧ 0 ≤ j ∧ j < lb.length ∧ j < ub.length) :
    ∀ w, (applyBounds o lb ub w l).Safe fun _ => True := by
  induction l with
  | nil => intro w; trivial
  | cons j r ih =>
    intro w
    obtain ⟨hj, h0, h1, h2⟩ := hl j (by simp)
    obtain ⟨n, rfl⟩ := Int.eq_ofNat_of_zero_le h0
    have e1 : lb[n]? = some lb[n] := by simp [show n < lb.length by omega]
    have e2 : ub[n]? = some ub[n] := by simp [show n < ub.length by omega]
    unfold applyBounds
    simp only [vecGet_some e1, vecGet_some e2, Outcome.bind_ok]
    exact (ho.setBounds w n hj _ _).orAbort.bind fun w1 _ _ => ih (fun k hk => hl k (by simp [hk])) w1

theorem iterate_safe {o : Oracle W} {d : MipData} {prm : Params} (hd : DataOk d)
    (hp : PrimalShape o d.lower.length) (ho : Tame o d prm) {s : State W}
    (h : ∃ bs, Sim d.lower.length s.queue s.tree bs) : (iterate o d prm s).Safe fun _ => True := by
  cases hpop : pop s.backjump s.queue with
  | none => simp [iterate, hpop, Outcome.Safe]
  | some x =>
    obtain ⟨node, queue⟩ := x
    obtain ⟨⟨lb, ub, h1, h2, h3, h4⟩, h5, h6⟩ := tree_calls hd h hpop
    unfold iterate
    simp only [hpop, h1, h2, Outcome.bind_ok]
    have hnode : (solveNode o d lb ub s.world).Safe fun _ => True := by
      unfold solveNode
      refine (applyBounds_safe ho (lb := lb) (ub := ub) d.integerVariables (fun j hj => by
        have := hd.ints j hj
        have := hd.len
        exact ⟨hj, by omega⟩) s.world).bind fun w1 _ _ => (ho.solve w1).orAbort.bind fun w2 _ _ => ?_
      split
      · rename_i ho2
        exact (ho.separate w2 ho2).orAbort
      · trivial
    refine hnode.bind fun w' _ _ => ?_
    split
    · rename_i hopt
      unfold optimalNode
      obtain ⟨tree, ht, hadd⟩ := h6 (o.objective w')
      simp only [ht, Outcome.bind_ok]
      refine (ho.primal w').orAbort.bind fun values hv _ => ?_
      rw [orAbort_eq_ok] at hv
      have hlen := hp w' values hv
      obtain ⟨b, hb, -⟩ := MipData.allIntegral_iff values prm.tol d.integerVariables
        (fun j hj => by rw [hlen]; exact hd.ints j hj)
      have hb' : d.solutionIsIntegral values prm.tol = .ok b := hb
      simp only [Outcome.bind_ok, hb']
      cases b with
      | true =>
        simp only [if_true]
        split <;> trivial
      | false =>
        simp only [Bool.false_eq_true, if_false]
        unfold branchNode
        refine (ho.branch w' values hv hb').orAbort.bind fun x _ hx => ?_
        obtain ⟨w2, col, up⟩ := x
        obtain ⟨hc0, hc1⟩ := hx
        simp only at hc0 hc1
        obtain ⟨c, rfl⟩ := Int.eq_ofNat_of_zero_le hc0
        have hc : c < values.length := by omega
        obtain ⟨tree1, tree2, dn, un, k1, k2⟩ := hadd c values[c] (by omega)
        have hg : vecGet values (c : Int) = .ok values[c] := vecGet_some (by simp [hc])
        simp [hg, k1, k2, Outcome.Safe, pure]
    · unfold infeasibleNode
      by_cases hn0 : node = 0
      · rw [if_pos hn0]; trivial
      · rw [if_neg hn0]
        obtain ⟨tree, ht⟩ := h5 hn0
        rw [ht]
        simp only [Outcome.bind_ok]
        split <;> trivial

theorem solveFuel_safe {o : Oracle W} {d : MipData} {prm : Params} (hd : DataOk d)
    (hp : PrimalShape o d.lower.length) (ho : Tame o d prm) {w : W} (fuel : Nat) :
    solveFuel o d prm fuel (initial w) ≠ some .ub := by
  have key : ∀ fuel s, Reach o d prm (initial w) s → solveFuel o d prm fuel s ≠ some .ub := by
    intro fuel
    induction fuel with
    | zero => intro s _ h; simp [solveFuel] at h
    | succ fuel ih =>
      intro s hs h
      have := iterate_safe hd hp ho (hs.sim hd hp)
      unfold solveFuel at h
      split at h
      · rename_i s' hi
        exact ih s' (hs.step hi) h
      · cases h
      · cases h
      · cases h
      · rename_i hi
        exact this.ne_ub hi
  exact key fuel _ .refl

end Solver

/-! ### The program -/

namespace Program

open Glop (LinearProgram Refines Extends)
open Solver (guard point)

variable {generators : List (World → CutRegistry → Outcome (World × List CutData))}
  {select : World → CutRegistry → List CutData → Outcome (World × List CutData)}

/-- The row of the cut has entries in the `n` columns of the problem only. -/
def Within (n : Nat) (c : CutData) : Prop := ∀ e ∈ c.row.entries, 0 ≤ e.index ∧ e.index < n

theorem world_solve_safe (e : Engine) (w : World) :
    (w.solve e).Safe fun w' => w'.lp.program = w.lp.program := by
  refine Outcome.safe_of ?_ fun w' h => (solve_world h).1
  intro h
  unfold World.solve at h
  split at h
  · simp only at h
    split at h <;> cases h
  · simp only at h
    refine Outcome.Safe.ne_ub (P := fun _ => True) ?_ h
    refine Outcome.Safe.bind (P := fun _ => True) ?_ fun x _ _ => ?_
    · unfold Soplex.soPlexSolve
      refine (Outcome.safe_check _).bind fun _ _ _ => ?_
      dsimp only
      split
      · exact (Outcome.safe_check _).bind fun _ _ _ => trivial
      · refine Outcome.Safe.bind (P := fun _ => True) ?_ fun _ _ _ => trivial
        unfold Soplex.lpSolve
        exact (Outcome.safe_check _).bind fun _ _ _ => (Outcome.safe_check _).bind fun _ _ _ =>
          (Outcome.safe_check _).bind fun _ _ _ => (Outcome.safe_check _).bind fun _ _ _ => trivial
    · split <;> trivial

theorem primal_safe (w : World) : w.primal.Safe fun _ => True := by
  unfold World.primal
  split
  · trivial
  · unfold Soplex.getPrimalValues Soplex.isOptimal
    refine Outcome.Safe.bind (P := fun _ => True) ((Outcome.safe_check _).bind fun _ _ _ => trivial) fun _ _ _ =>
      (Outcome.safe_check _).bind fun _ _ _ => ?_
    unfold Soplex.fetch
    split <;> trivial

theorem addRow_safe {l : Lp} {r : LpRow} (h : ∀ e ∈ r.row.entries, 0 ≤ e.index ∧ e.index < l.program.cols.length) :
    (l.addRow r).Safe fun _ => True := by
  cases l with
  | glop s =>
    obtain ⟨lp', h1⟩ := setRow_ok s.iface.lp.rows.length r.row.entries
      { s.iface.lp with rows := s.iface.lp.rows ++ [⟨r.lhs, r.rhs, r.name⟩] } h
    simp [Lp.addRow, Glop.addRow, h1, Outcome.Safe, pure]
  | soplex g =>
    obtain ⟨lp', h1⟩ := setRow_ok g.lp.rows.length r.row.entries
      { g.lp with rows := g.lp.rows ++ [⟨r.lhs, r.rhs, ""⟩] } h
    simp [Lp.addRow, Soplex.addRow, Soplex.addRowReal, h1, Outcome.Safe, pure]

theorem setColumnBounds_safe {l : Lp} {j : Int} {a b : Dbl} (h : 0 ≤ j ∧ j < l.program.cols.length) :
    (l.setColumnBounds j a b).Safe fun _ => True := by
  cases l with
  | glop s =>
    have h' : 0 ≤ j ∧ j < s.iface.lp.cols.length := h
    simp [Lp.setColumnBounds, Glop.setColumnBounds, if_pos h', Outcome.Safe, pure]
  | soplex g =>
    unfold Lp.setColumnBounds Soplex.setColumnBounds
    refine Outcome.Safe.bind (P := fun _ => True) ?_ fun _ _ _ => trivial
    exact (Outcome.safe_check _).bind fun _ _ _ => (Outcome.safe_check _).bind fun _ _ _ =>
      (Outcome.safe_check _).bind fun _ _ _ => trivial

/-- Cut generators and a selector that only read the LP, do nothing undefined, and return cuts on the `n` variables of the
problem (the selector: if it was given such cuts). -/
structure Behaves (generators : List (World → CutRegistry → Outcome (World × List CutData)))
    (select : World → CutRegistry → List CutData → Outcome (World × List CutData)) (n : Nat) : Prop where
  generate : ∀ g ∈ generators, ∀ w reg, g w reg ≠ .ub ∧
    ∀ w' cuts, g w reg = .ok (w', cuts) → w' = w ∧ ∀ c ∈ cuts, Within n c
  select : ∀ w reg l, (∀ c ∈ l, Within n c) → select w reg l ≠ .ub ∧
    ∀ w' cuts, select w reg l = .ok (w', cuts) → w' = w ∧ ∀ c ∈ cuts, Within n c

/-- The LP extends the first one, and the cuts of the registry are on its variables. -/
abbrev SafeState (lp₀ : LinearProgram) : Runner World → Prop :=
  Runner.Held (fun w => Extends lp₀ w.lp.program) (Within lp₀.cols.length)

theorem tame_plugins {n : Nat} (hb : Behaves generators select n) (e : Engine) (c : Setup.Created) {lp₀ : LinearProgram}
    (hn : lp₀.cols.length = n) :
    Runner.Tame (customPlugins e c generators select) (fun w => Extends lp₀ w.lp.program) (Within lp₀.cols.length) where
  index _ _ h := h
  generate g hg w reg hw := by
    obtain ⟨h1, h2⟩ := hb.generate g hg w reg
    refine Outcome.safe_of h1 fun x hx => ?_
    obtain ⟨rfl, h3⟩ := h2 x.1 x.2 hx
    rw [hn]
    exact ⟨hw, h3⟩
  select w reg cuts hw hc := by
    rw [hn] at hc
    obtain ⟨h1, h2⟩ := hb.select w reg cuts hc
    refine Outcome.safe_of h1 fun x hx => ?_
    obtain ⟨rfl, h3⟩ := h2 x.1 x.2 hx
    rw [hn]
    exact ⟨hw, h3⟩
  addRow w cut name hw hc := by
    simp only [customPlugins, plugins]
    refine Outcome.Safe.bind (P := fun _ => True) (addRow_safe ?_) fun l hl _ => ?_
    · rw [hw.numCols]; exact hc
    · obtain ⟨name, hs⟩ := addRow_program hl
      exact (hw.addRow _ _ hs).1
  solve w hw := (world_solve_safe e w).mono fun w' _ h => by rw [h]; exact hw

theorem keeps_safeState {n : Nat} (hb : Behaves generators select n) (e : Engine) (c : Setup.Created) {lp₀ : LinearProgram}
    (hn : lp₀.cols.length = n) {d : MipData} : Solver.Keeps (customOracle e c generators select) d (SafeState lp₀) where
  setBounds w hw j hj l u w' h := by
    refine ⟨(keeps_good (e := e) (c := c) (d := d)).setBounds w hw.1 j hj l u w' h, ?_⟩
    obtain ⟨-, -, -, -, h1⟩ := setBounds_spec (e := e) (c := c) h
    rw [h1]
    exact hw.2
  solve w w' hw h := by
    refine ⟨(keeps_good (e := e) (c := c) (d := d)).solve w w' hw.1 h, ?_⟩
    obtain ⟨-, -, -, h1⟩ := solve_spec (e := e) (c := c) h
    rw [h1]
    exact hw.2
  separate w w' hw _ h := by
    simp only [customOracle, customSeparate] at h
    split at h
    · rename_i x hx
      subst h
      exact Runner.separateFuel_safe (tame_plugins hb e c hn) _ hw _ hx
    · cases h
  branch w w' col up hw h := by
    obtain ⟨h1, h2⟩ := branch_spec (e := e) (c := c) h
    have h3 : w'.registry = w.registry := by rw [h2]
    exact ⟨by show Extends lp₀ w'.world.lp.program; rw [h1]; exact hw.1, by rw [h3]; exact hw.2⟩

theorem tame_oracle {p : Problem} {n : Nat} (hb : Behaves generators select n) (e : Engine) (c : Setup.Created)
    (hd : c.data.Represents p) (htol : 0 ≤ c.integralityTolerance) {lp₀ : LinearProgram} (h₀ : Refines lp₀ p.relaxation)
    (hn : lp₀.cols.length = n) :
    Solver.PrimalShape (guard (customOracle e c generators select) (SafeState lp₀)) c.data.lower.length ∧
    Solver.Tame (guard (customOracle e c generators select) (SafeState lp₀)) c.data (params c) := by
  have hdk := Solver.dataOk_of_represents hd
  have hlen : lp₀.cols.length = c.data.lower.length := by
    rw [h₀.numCols, hd.lower, List.length_map]; rfl
  have hs : Solver.PrimalShape (guard (customOracle e c generators select) (SafeState lp₀)) c.data.lower.length := by
    rw [← hlen]
    exact primalShape (e := e) (c := c) (Good' := SafeState lp₀) (fun _ h => h.1)
  refine ⟨hs, ?_, ?_, ?_, ?_, ?_⟩
  · intro r j hj l u
    by_cases hr : SafeState lp₀ r
    · have hj' := hdk.ints j hj
      rw [← hlen, ← hr.1.numCols] at hj'
      have : ((customOracle e c generators select).setBounds r j l u).Safe fun _ => True :=
        (setColumnBounds_safe hj').bind fun _ _ _ => trivial
      rwa [show (guard (customOracle e c generators select) (SafeState lp₀)).setBounds r j l u =
        (customOracle e c generators select).setBounds r j l u from if_pos hr]
    · rw [show (guard (customOracle e c generators select) (SafeState lp₀)).setBounds r j l u = .ok r from if_neg hr]
      trivial
  · intro r
    by_cases hr : SafeState lp₀ r
    · have : ((customOracle e c generators select).solve r).Safe fun _ => True :=
        (world_solve_safe e r.world).bind fun _ _ _ => trivial
      rwa [show (guard (customOracle e c generators select) (SafeState lp₀)).solve r =
        (customOracle e c generators select).solve r from if_pos hr]
    · rw [show (guard (customOracle e c generators select) (SafeState lp₀)).solve r = .ok r from if_neg hr]
      trivial
  · intro r _
    by_cases hr : SafeState lp₀ r
    · rw [show (guard (customOracle e c generators select) (SafeState lp₀)).separate r =
        customSeparate e c generators select r from if_pos hr]
      unfold customSeparate
      split
      · rename_i x hx
        exact (Runner.separateFuel_safe (tame_plugins hb e c hn) _ hr _ hx).mono fun _ _ _ => trivial
      · rename_i hx
        exact (Runner.C24_terminates_partial _ _ _ hx).elim
    · rw [show (guard (customOracle e c generators select) (SafeState lp₀)).separate r = .ok r from if_neg hr]
      trivial
  · intro r
    by_cases hr : SafeState lp₀ r
    · rw [show (guard (customOracle e c generators select) (SafeState lp₀)).primal r = r.world.primal from if_pos hr]
      exact primal_safe _
    · rw [show (guard (customOracle e c generators select) (SafeState lp₀)).primal r = .error "" from if_neg hr]
      trivial
  · intro r values hv hi
    by_cases hr : SafeState lp₀ r
    swap
    · have h' := (if_neg hr).symm.trans hv
      cases h'
    cases hrule : c.rule with
    | maxFractional dir =>
      have hmax : Solver.UsesMaxFractional (guard (customOracle e c generators select) (SafeState lp₀)) c.data (params c) :=
        usesMaxFractional (e := e) hrule
      obtain ⟨col, up, v, h1, h2, -⟩ := Solver.maxFractional_fractional hdk hs hmax htol hv hi
      rw [h1]
      exact hdk.ints _ h2
    | random seed dir =>
      have hne : 0 < c.data.integerVariables.length := by
        rcases hi' : c.data.integerVariables with _ | ⟨a, l⟩
        · rw [MipData.solutionIsIntegral, hi'] at hi
          cases hi
        · simp
      have : ∃ up, (oracle e c).branch r =
          .ok ({ r with world := { r.world with draws := r.world.draws + 1 } },
            ((e.draw r.world.draws % c.data.integerVariables.length : Nat) : Int), up) :=
        ⟨_, by simp only [oracle, branch, hrule, Branching.random, if_pos hne]; rfl⟩
      obtain ⟨up, hup⟩ := this
      have hup' : (guard (customOracle e c generators select) (SafeState lp₀)).branch r = _ := (if_pos hr).trans hup
      rw [hup']
      have h1 := Nat.mod_lt (e.draw r.world.draws) hne
      have h2 : c.data.integerVariables.length ≤ c.data.lower.length := by
        have hsub : c.data.integerVariables ⊆ (List.range c.data.lower.length).map (Int.ofNat) := by
          intro j hj
          have := hdk.ints j hj
          exact List.mem_map.2 ⟨j.toNat, by rw [List.mem_range]; omega, by simp; omega⟩
        simpa using (hd.integersNodup.subperm hsub).length_le
      constructor
      · simp only; omega
      · simp only; omega

/-- **C119 (for any plug-ins).**  Cut generators and a selector that behave, a problem that passes validation, a tolerance that is
not negative, both interfaces and both rules, and LP code that answers whatever it likes: `Solve` does nothing undefined. -/
theorem C119_behaved_plugins (p : Problem) (hp : p.WellFormed) (e : Engine) (x : Setup.External) (user : Setup.ParamsMsg)
    (c : Setup.Created) (h : Setup.create x p user = .ok c)
    (htol : 0 ≤ user.integralityTolerance.getD (1 / 10 ^ 6))
    (generators : List (World → CutRegistry → Outcome (World × List CutData)))
    (select : World → CutRegistry → List CutData → Outcome (World × List CutData))
    (hb : Behaves generators select p.vars.length) (fuel : Nat) : customSolve e c generators select fuel ≠ some .ub := by
  obtain ⟨hd, h₀⟩ := created_refines hp h
  obtain ⟨-, -, -, -, -, h6, -⟩ := Setup.create_ok h
  rw [← h6] at htol
  have hn : (start c.lpi).program.cols.length = p.vars.length := h₀.numCols
  obtain ⟨hs, ht⟩ := tame_oracle hb e c hd htol h₀ hn
  have hg : SafeState (start c.lpi).program { world := { lp := start c.lpi } } := ⟨Extends.refl _, by simp⟩
  have := Solver.solveFuel_safe (Solver.dataOk_of_represents hd) hs ht (w := { world := { lp := start c.lpi } }) fuel
  rwa [Solver.guard_solveFuel (keeps_safeState hb e c hn) _ _ (by exact hg)] at this

theorem behaves_nothing (n : Nat) : Behaves [] (fun w _ l => .ok (w, l)) n :=
  ⟨by simp, fun w _ l hl => ⟨by simp, fun w' cuts h => by cases h; exact ⟨rfl, hl⟩⟩⟩

/-- Without cuts the generators and the selector have no influence. -/
theorem nothing_agree (e : Engine) {c : Setup.Created} (hn : NoCuts c.runner.params)
    (generators : List (World → CutRegistry → Outcome (World × List CutData)))
    (select : World → CutRegistry → List CutData → Outcome (World × List CutData)) :
    Solver.Agree Uncut (customOracle e c generators select) (customOracle e c [] fun w _ l => .ok (w, l)) :=
  { uncut_agree e hn generators select with
    separate := by
      intro r hr
      have hm : ∀ g s, Runner.mayRun c.runner.params (customPlugins e c g s) r = false := by
        intro g s
        unfold Runner.mayRun
        rcases hn with hn | hn | hn
        · rw [hr.1]; simp [hn]
        · rw [hr.2.1.1]; simp [hn]
        · simp [hn, Runner.toSizeT]
      show customSeparate _ _ _ _ r = customSeparate _ _ _ _ r
      unfold customSeparate Runner.separateFuel
      rw [hm, hm]
      rfl }

/-- **C119, without cuts.**  For every well-formed problem, whatever the LP code answers, all parameters with a tolerance
that is not negative and with a limit that turns the cuts off: `Solve` never does anything undefined, in doubles or not,
after any number of iterations, whatever generators and selector are installed. -/
theorem C119_without_cuts (p : Problem) (hp : p.WellFormed) (e : Engine) (x : Setup.External) (user : Setup.ParamsMsg)
    (c : Setup.Created) (h : Setup.create x p user = .ok c)
    (htol : 0 ≤ user.integralityTolerance.getD (1 / 10 ^ 6))
    (hoff : user.limit (·.maxIterations) ≤ 0 ∨ user.limit (·.maxNumCutsPerNode) ≤ 0 ∨ user.limit (·.maxNumCutsTotal) = 0)
    (fuel : Nat) :
    solve e c fuel ≠ some .ub ∧ (∀ s t q, doubleRun s t q e c fuel ≠ some .ub) ∧
      ∀ generators select, customSolve e c generators select fuel ≠ some .ub := by
  have hn : NoCuts c.runner.params := by
    obtain ⟨-, -, -, hrun, -⟩ := Setup.create_ok h
    rw [hrun]
    rw [← Setup.limit_eq user _ rfl, ← Setup.limit_eq user _ rfl, ← Setup.limit_eq user _ rfl] at hoff
    exact hoff
  have key : ∀ generators select, customSolve e c generators select fuel ≠ some .ub := by
    intro generators select
    have h1 := ((nothing_agree e hn generators select).solveFuel c.data (params c) fuel
      (Solver.initial { world := { lp := start c.lpi } }) ⟨rfl, ⟨rfl, rfl⟩, rfl, rfl⟩).1
    have h2 := C119_behaved_plugins p hp e x user c h htol [] _ (behaves_nothing _) fuel
    unfold customSolve at h2 ⊢
    rwa [h1] at h2
  exact ⟨key _ _, fun _ _ _ => key _ _, key⟩

/-- **C119, the solutions.**  For every well-formed problem, whatever the LP code answers, all parameters and whatever
generators and selector that only read the LP: each solution that `Solve` returns is the point and the value that the LP
code reported together as optimal for an LP with the rows of the problem, and more rows maybe, and bounds no wider than the
user's; it has a value for each variable, and those of the integer variables are integral up to the tolerance. -/
theorem C119_solutions (p : Problem) (hp : p.WellFormed) (e : Engine) (x : Setup.External) (user : Setup.ParamsMsg)
    (c : Setup.Created) (h : Setup.create x p user = .ok c)
    (generators : List (World → CutRegistry → Outcome (World × List CutData)))
    (select : World → CutRegistry → List CutData → Outcome (World × List CutData))
    (hgen : ∀ g ∈ generators, ∀ w reg w' cuts, g w reg = .ok (w', cuts) → w' = w)
    (hsel : ∀ w reg l w' cuts, select w reg l = .ok (w', cuts) → w' = w)
    (fuel : Nat) (s : Solver.State (Runner World)) (hs : customSolve e c generators select fuel = some (.ok s)) :
    ∀ sol, (sol = s.result.best ∧ sol ≠ {}) ∨ sol ∈ s.result.additional →
      sol.values.length = p.vars.length ∧
      (∀ (n : Nat) (v : Variable) (z : ℚ), p.vars[n]? = some v → v.isInteger = true → sol.values[n]? = some z →
        ∃ k : Int, |z - k| ≤ user.integralityTolerance.getD (1 / 10 ^ 6)) ∧
      ∃ v w : World, v.solve e = .ok w ∧ w.lp.isOptimal = true ∧ w.primal = .ok sol.values ∧
        w.report.objective = sol.objective ∧
        Extends (start c.lpi).program w.lp.program ∧
        ∀ y : Int → ℚ, (∀ (n : Nat) (col : Glop.Column), w.lp.program.cols[n]? = some col → Between col.lower (y n) col.upper) →
          ∀ (n : Nat) (u : Variable), p.vars[n]? = some u → Between u.lower (y n) u.upper := by
  obtain ⟨hd, h₀⟩ := created_refines hp h
  have hro : Runner.ReadsOnly (customPlugins e c generators select) := ⟨hgen, hsel⟩
  have htol : (params c).tol = user.integralityTolerance.getD (1 / 10 ^ 6) := by
    obtain ⟨-, -, -, -, -, h6, -⟩ := Setup.create_ok h
    exact h6
  have hg : Good (start c.lpi).program { world := { lp := start c.lpi } } := Extends.refl _
  have hlen : c.data.lower.length = p.vars.length := by rw [hd.lower]; simp
  have hsh : Solver.PrimalShape (guard (customOracle e c generators select) (Good (start c.lpi).program)) _ :=
    primalShape (e := e) (c := c) (Good' := Good (start c.lpi).program) (fun _ h => h)
  rw [show _ = p.vars.length from h₀.numCols, ← hlen] at hsh
  have hok := Solver.dataOk_of_represents hd
  rw [customSolve, ← Solver.guard_solveFuel (custom_keeps_good hro) _ _ (by exact hg)] at hs
  obtain ⟨sols, hbest, hadd, hrec, -⟩ := Solver.run_from hok hsh (custom_contract_of hro
    (A := fun w => ∃ v : World, v.solve e = .ok w) (fun v w _ hv => ⟨v, hv⟩)).guard hg (startsAt hd h₀) hs
  intro sol hsol
  have hmem : sol ∈ sols := by
    obtain ⟨hm1, hm2⟩ := Solver.addAll_mem sols
    rcases hsol with ⟨rfl, hne⟩ | hsol
    · rw [hbest] at hne ⊢
      exact hm1.resolve_left hne
    · exact hm2 sol (hadd ▸ hsol)
  obtain ⟨r, ⟨v, hv⟩, hopt, hprim, hobj, hint, hin⟩ := hrec sol hmem
  have hl := hsh _ _ hprim
  by_cases hr : Good (start c.lpi).program r
  swap
  · exact absurd ((if_neg hr).symm.trans hopt) (by simp)
  have hopt' : r.world.lp.isOptimal = true := (if_pos hr).symm.trans hopt
  have hprim' : r.world.primal = .ok sol.values := (if_pos hr).symm.trans hprim
  refine ⟨hl.trans hlen, ?_, v, r.world, hv, hopt', hprim', hobj.symm, hr, ?_⟩
  · intro n u z hu hi hz
    obtain ⟨b, h1, h2⟩ := MipData.allIntegral_iff sol.values (params c).tol c.data.integerVariables
      (fun j hj => by rw [hl]; exact hok.ints j hj)
    have h1' : c.data.solutionIsIntegral sol.values (params c).tol = .ok b := h1
    rw [hint] at h1'
    cases h1'
    rw [← htol]
    exact h2.1 rfl n z ((hd.integers n).2 ⟨n, u, hu, hi, rfl⟩) hz
  · intro y hy n u hu
    refine hin y ?_ n u.lower u.upper (by rw [hd.lower]; simp [hu]) (by rw [hd.upper]; simp [hu])
    intro m hm
    have hm' : m < r.world.lp.program.cols.length := by
      rw [hr.numCols, show _ = p.vars.length from h₀.numCols, ← hlen]; exact hm
    have := hy m _ (List.getElem?_eq_getElem hm')
    simpa [bounds, hm'] using this

/-! ### Non-vacuity -/

/-- A run that `C119_without_cuts` and `C119_solutions` apply to, with no generator, which returns a
solution. -/
example (x : Setup.External) : openProblem.WellFormed ∧ 0 ≤ exUser.integralityTolerance.getD (1 / 10 ^ 6) ∧
    exUser.limit (·.maxIterations) ≤ 0 ∧ ∃ c s, Setup.create x openProblem exUser = .ok c ∧
      customSolve perfect c [] (fun w _ l => .ok (w, l)) (rangeBound openProblem fun _ => (0, 7 / 2)) = some (.ok s) ∧
      s.result.best ≠ {} := by
  obtain ⟨h1, h2, -, h4, h5, y, hy⟩ := openProblem_spec
  have hoff : exUser.limit (·.maxIterations) ≤ 0 := by simp [exUser, Setup.ParamsMsg.limit]
  obtain ⟨c, hc, hs⟩ := C104_total_correctness openProblem h1 _ h4 h5 x exUser _ (Setup.lpWins _)
    (by refine ⟨⟨?_, ?_, ?_, ?_, ?_, ?_, ?_, ?_⟩, rfl, ?_, ?_, rfl, rfl⟩ <;>
        simp [exUser, Setup.LpMsg.read, ToleranceOk])
    ⟨0, le_rfl, rfl⟩ (by simp [exUser]) (by norm_num [exUser])
  refine ⟨h1, by norm_num [exUser], hoff, ?_⟩
  have hn : NoCuts c.runner.params := by
    obtain ⟨-, -, -, hrun, -⟩ := Setup.create_ok hc
    rw [hrun]
    rw [← Setup.limit_eq exUser _ rfl] at hoff
    exact .inl hoff
  rcases hs perfect perfect_spec.1 perfect_spec.2 with ⟨-, h⟩ | ⟨s, h, -, h'⟩
  · exact absurd hy (h y)
  · refine ⟨c, s, hc, ?_, (h' y hy).1⟩
    rw [← h]
    exact ((nothing_agree perfect hn _ _).solveFuel c.data (params c) _
      (Solver.initial { world := { lp := start c.lpi } }) ⟨rfl, ⟨rfl, rfl⟩, rfl, rfl⟩).1

/-- A generator and a selector that behave: the generator returns the cut `x ≤ 5` on the first variable in each round, the
selector takes the first cut. -/
example : Behaves [fun w _ => .ok (w, [⟨⟨[⟨0, 1⟩], false⟩, 5, 1, 1, .fin 1, "five", false, false, .fin 1, none, none⟩])]
    (fun w _ l => .ok (w, l.take 1)) 2 := by
  refine ⟨fun g hg w reg => ?_, fun w reg l hl => ⟨by simp, fun w' cuts h => ?_⟩⟩
  · rw [List.mem_singleton] at hg
    subst hg
    refine ⟨by simp, fun w' cuts h => ?_⟩
    cases h
    exact ⟨rfl, by simp [Within]⟩
  · cases h
    exact ⟨rfl, fun c hc => hl c (List.mem_of_mem_take hc)⟩

end Program
end MiniMip
