import Verif.Lemmas.SolverGuard

/-!
# The bounds of a node never cross

If the bounds of the integer variables are integers or infinite and the branching rule chooses variables
with a non-integral value, every node of the search has bounds that admit an integer for each integer
variable.  So an LP solver that only answers if no bounds cross answers throughout the search.
-/

namespace MiniMip
namespace Solver

open MipTree

variable {W : Type}

/-- The bounds of the integer variables admit an integer, and with each value the integers next to it. -/
def IntegralBounds (d : MipData) : Prop :=
  ∀ (n : Nat) (l u : Dbl), (n : Int) ∈ d.integerVariables → d.lower[n]? = some l → d.upper[n]? = some u →
    (∃ k : Int, Between l k u) ∧ ∀ y, Between l y u → Between l (⌊y⌋ : Int) u ∧ Between l (⌈y⌉ : Int) u

/-- The box admits an integer within the bounds for every integer variable, and with each value the
integers next to it. -/
def OpenBox (d : MipData) (b : Box) : Prop :=
  (∀ (n : Nat) (l u : Dbl), (n : Int) ∈ d.integerVariables → d.lower[n]? = some l → d.upper[n]? = some u →
    ∃ k : Int, Between l k u ∧ b n k) ∧
  ∀ (n : Nat) (y : ℚ), b n y → b n (⌊y⌋ : Int) ∧ b n (⌈y⌉ : Int)

theorem openBox_child {d : MipData} (hi : IntegralBounds d) {b : Box} (hb : OpenBox d b) {col : Nat} {v : ℚ}
    (hv : ∀ l u, d.lower[col]? = some l → d.upper[col]? = some u → Between l v u)
    (hbv : b col v) (down : Bool) : OpenBox d (childBox b col v down) := by
  constructor
  · intro n l u hn hl hu
    by_cases hnc : col = n
    · subst hnc
      obtain ⟨h1, h2⟩ := (hi col l u hn hl hu).2 v (hv l u hl hu)
      obtain ⟨h3, h4⟩ := hb.2 col v hbv
      cases down with
      | true => exact ⟨_, h1, h3, fun _ => by simp⟩
      | false => exact ⟨_, h2, h4, fun _ => by simp⟩
    · obtain ⟨k, h1, h2⟩ := hb.1 n l u hn hl hu
      exact ⟨k, h1, h2, fun h => absurd h hnc⟩
  · rintro n y ⟨h1, h2⟩
    obtain ⟨h3, h4⟩ := hb.2 n y h1
    refine ⟨⟨h3, fun h => ?_⟩, ⟨h4, fun h => ?_⟩⟩
    · have := h2 h
      cases down with
      | true => simp only [if_true] at this ⊢; exact (Int.floor_le y).trans this
      | false => simp only [Bool.false_eq_true, if_false] at this ⊢; exact_mod_cast Int.le_floor.2 this
    · have := h2 h
      cases down with
      | true => simp only [if_true] at this ⊢; exact_mod_cast Int.ceil_le.2 this
      | false => simp only [Bool.false_eq_true, if_false] at this ⊢; exact this.trans (Int.le_ceil y)

theorem trans_open {o : Oracle W} {d : MipData} {prm : Params} (hi : IntegralBounds d)
    {bounds : W → Int → Dbl × Dbl} (hbr : BranchesOnFractional o d prm)
    {bs bs' : List Box} {sols sols' : List Solution}
    (h : Trans o d prm bounds (BoundedAnswer o d bounds) bs sols bs' sols')
    (ho : ∀ b ∈ bs, OpenBox d b) : ∀ b ∈ bs', OpenBox d b := by
  cases h with
  | drop h1 => exact fun b hb => ho b (h1.mem_iff.2 (by simp [hb]))
  | record h1 => exact fun b hb => ho b (h1.mem_iff.2 (by simp [hb]))
  | split h1 h2 h3 h4 h5 h6 h7 h8 =>
    rename_i b0 bs1 w w' values col up v
    obtain ⟨hcol, -⟩ := hbr w values w' col up v h5 h6 h7 h8
    obtain ⟨hroot, hbox⟩ := (h3 _).1 (h2 h4 values h5)
    have hpt := point_eq h8
    have hc := fun dn => openBox_child hi (ho b0 (h1.mem_iff.2 (by simp))) (col := col) (v := v)
      (fun l u hl hu => by have := hroot col l u hl hu; rwa [hpt] at this)
      (by have := hbox col hcol; rwa [hpt] at this) dn
    intro b hb
    simp only [List.cons_append, List.mem_cons, List.mem_append, List.not_mem_nil, or_false] at hb
    rcases hb with rfl | hb | rfl
    · exact hc _
    · exact ho b (h1.mem_iff.2 (by simp [hb]))
    · exact hc _

/-- No iteration makes a box that admits no integer. -/
def KeepsOpen (o : Oracle W) (d : MipData) (prm : Params) (bounds : W → Int → Dbl × Dbl) (Answer : W → Prop) : Prop :=
  ∀ bs bs' sols sols', Trans o d prm bounds Answer bs sols bs' sols' → (∀ b ∈ bs, OpenBox d b) → ∀ b ∈ bs', OpenBox d b

theorem reach_open {o : Oracle W} {d : MipData} {prm : Params} {Good : W → Prop}
    {bounds : W → Int → Dbl × Dbl} {Answer : W → Prop} (hd : DataOk d) (hi : IntegralBounds d)
    (hp : PrimalShape o d.lower.length) (hc : Contract o Good bounds Answer)
    (hk : KeepsOpen o d prm bounds Answer) {w : W} (hg : Good w)
    (hs : StartsAt d bounds w) {s : State W} (h : Reach o d prm (initial w) s) :
    ∃ bs sols, Inv d Good bounds s bs sols ∧ ∀ b ∈ bs, OpenBox d b := by
  induction h with
  | refl =>
    obtain ⟨b, hb, hinv⟩ := inv_init (d := d) hg hs
    refine ⟨_, _, hinv, ?_⟩
    simp only [List.mem_singleton, forall_eq]
    refine ⟨fun n l u hn hl hu => ?_, fun n y _ => ⟨hb _ _, hb _ _⟩⟩
    obtain ⟨k, hk⟩ := (hi n l u hn hl hu).1
    exact ⟨k, hk, hb _ _⟩
  | step _ hit ih =>
    obtain ⟨bs, sols, h1, h2⟩ := ih
    obtain ⟨bs', sols', h3, h4⟩ := (iterate_trans hd hp hc h1).1 _ hit
    exact ⟨bs', sols', h3, hk _ _ _ _ h4 h2⟩

/-- No bounds of the LP's columns cross. -/
def Uncrossed (d : MipData) (bounds : W → Int → Dbl × Dbl) (w : W) : Prop :=
  ∀ n : Nat, n < d.lower.length → Dbl.le (bounds w n).1 (bounds w n).2 = true

open Classical in
/-- The oracle that solves only if no bounds cross. -/
noncomputable def careful (o : Oracle W) (d : MipData) (bounds : W → Int → Dbl × Dbl) : Oracle W :=
  { o with solve := fun w => if Uncrossed d bounds w then o.solve w else .ok w }

theorem le_of_between {l u : Dbl} {y : ℚ} (h : Between l y u) : Dbl.le l u = true := by
  obtain ⟨h1, h2⟩ := h
  cases l <;> cases u <;> simp_all [Dbl.le]
  exact h1.trans h2

theorem careful_applyBounds (o : Oracle W) (d : MipData) (bounds : W → Int → Dbl × Dbl) (lb ub : List Dbl) :
    ∀ (l : List Int) (w : W),
      applyBounds (careful o d bounds) lb ub w l = applyBounds o lb ub w l := by
  intro l
  induction l with
  | nil => intro w; rfl
  | cons j r ih =>
    intro w
    unfold applyBounds
    simp only [ih]
    rfl

theorem careful_iterate {o : Oracle W} {d : MipData} {prm : Params} {Good : W → Prop}
    {bounds : W → Int → Dbl × Dbl} (hd : DataOk d)
    (hle : ∀ (n : Nat) (l u : Dbl), d.lower[n]? = some l → d.upper[n]? = some u → Dbl.le l u = true)
    {Answer : W → Prop} (hc : Contract o Good bounds Answer)
    {s : State W} {bs : List Box} {sols : List Solution} (hinv : Inv d Good bounds s bs sols)
    (ho : ∀ b ∈ bs, OpenBox d b) :
    iterate (careful o d bounds) d prm s = iterate o d prm s := by
  obtain ⟨t, q, ht, rfl⟩ := hinv.sim
  unfold iterate
  rw [ht.queue]
  rcases pop_spec s.backjump q with ⟨h1, rfl⟩ | ⟨n, q', h1, hpop⟩
  · rw [h1]
  · rw [h1]
    simp only
    obtain ⟨-, -, -, -, lb, ub, hlb, hub, hbs⟩ := pop_node ht d hd rfl hpop
    rw [hlb, hub]
    simp only [Outcome.bind_ok]
    have hopen : OpenBox d (boxOf t n) :=
      ho _ (List.mem_map.2 ⟨n, hpop.perm.mem_iff.2 (by simp), rfl⟩)
    have hnode : solveNode (careful o d bounds) d lb ub s.world = solveNode o d lb ub s.world := by
      unfold solveNode
      rw [careful_applyBounds]
      cases hb : applyBounds o lb ub s.world d.integerVariables with
      | ok w1 =>
        simp only [Outcome.bind_ok]
        have hun : Uncrossed d bounds w1 := by
          obtain ⟨-, hin, hout⟩ := applyBounds_spec hc d.integerVariables s.world w1 hinv.good hb
          intro m hm
          have hl : d.lower[m]? = some d.lower[m] := by simp [hm]
          have hm2 : m < d.upper.length := by rw [← hd.len]; exact hm
          have hu : d.upper[m]? = some d.upper[m] := by simp [hm2]
          by_cases hi : (m : Int) ∈ d.integerVariables
          · obtain ⟨a, c, ha, hcc, hbd⟩ := hin m hi
            obtain ⟨n1, e1, ha⟩ := vecGet_eq_ok ha
            obtain ⟨n2, e2, hcc⟩ := vecGet_eq_ok hcc
            obtain rfl : m = n1 := by omega
            obtain rfl : m = n2 := by omega
            rw [hbd]
            obtain ⟨k, hk1, hk2⟩ := hopen.1 m _ _ hi hl hu
            have := (hbs.2.2 m k).2
            simp only [AboveAt, BelowAt, ha, hcc, hl, hu, Option.some.injEq, forall_eq'] at this
            exact le_of_between (this ⟨hk1.1, hk1.2, hk2⟩)
          · rw [hout m hi, hinv.kept m _ _ hi hl hu]
            exact hle m _ _ hl hu
        rw [show (careful o d bounds).solve w1 = o.solve w1 from if_pos hun]
        rfl
      | _ => rfl
    rw [hnode]
    rfl

/-- If the LP solver answers as long as no bounds cross, no iteration aborts. -/
theorem never_aborts_uncrossed {o : Oracle W} {d : MipData} {prm : Params} {Good : W → Prop}
    {bounds : W → Int → Dbl × Dbl} {Answer : W → Prop} (hd : DataOk d) (hi : IntegralBounds d)
    (hle : ∀ (n : Nat) (l u : Dbl), d.lower[n]? = some l → d.upper[n]? = some u → Dbl.le l u = true)
    (hp : PrimalShape o d.lower.length) (hc : Contract o Good bounds Answer)
    (hk : KeepsOpen o d prm bounds Answer) {w : W} (hg : Good w) (hs : StartsAt d bounds w)
    (hr : Responsive (careful o d bounds) d prm) {s : State W} (h : Reach o d prm (initial w) s) :
    (∃ res, iterate o d prm s = .ok res) ∨
      iterate o d prm s = .error "The problem is infeasible or unbounded" := by
  have key : ∀ {s : State W}, Reach o d prm (initial w) s →
      iterate (careful o d bounds) d prm s = iterate o d prm s := by
    intro s h
    obtain ⟨bs, sols, h1, h2⟩ := reach_open hd hi hp hc hk hg hs h
    exact careful_iterate hd hle hc h1 h2
  have hreach : Reach (careful o d bounds) d prm (initial w) s := by
    induction h with
    | refl => exact .refl
    | step h1 h2 ih => exact ih.step (by rw [key h1]; exact h2)
  rw [← key h]
  exact C38_never_aborts (o := careful o d bounds) hd hp hr hreach

end Solver
end MiniMip
