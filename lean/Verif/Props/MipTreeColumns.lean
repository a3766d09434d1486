import Verif.Props.MipTree

/-!
# Retrieved bounds, column by column

`C17_retrieved_bounds` describes the retrieved bounds as a box; here each column is
described on its own, which is what `Solver::Solve` needs: it only hands the bounds of the
integer columns to the LP.
-/

namespace MiniMip
namespace MipTree

open ATree

/-- The lower (upper) bound of column `j` admits the value `y`. -/
def AboveAt (b : List Dbl) (j : Nat) (y : ℚ) : Prop :=
  ∀ v, b[j]? = some v → Dbl.le v (.fin y) = true
def BelowAt (b : List Dbl) (j : Nat) (y : ℚ) : Prop :=
  ∀ v, b[j]? = some v → Dbl.le (.fin y) v = true

/-- What the record of a node demands of column `j`, from below and from above. -/
def Rec.LowerAt (r : Rec) (j : Nat) (y : ℚ) : Prop :=
  (∀ cv ∈ r.lower, cv.1 = j → Dbl.le cv.2 (.fin y) = true) ∧
  (r.parent ≠ none → r.down = false → r.var = j → Dbl.le (Dbl.ceil r.value) (.fin y) = true)
def Rec.UpperAt (r : Rec) (j : Nat) (y : ℚ) : Prop :=
  (∀ cv ∈ r.upper, cv.1 = j → Dbl.le (.fin y) cv.2 = true) ∧
  (r.parent ≠ none → r.down = true → r.var = j → Dbl.le (.fin y) (Dbl.floor r.value) = true)

theorem aboveAt_set {b : List Dbl} {k : Nat} {old v : Dbl} (ho : b[k]? = some old) (hv : v ≠ .nan)
    (j : Nat) (y : ℚ) :
    AboveAt (b.set k (Dbl.max old v)) j y ↔
      AboveAt b j y ∧ (k = j → Dbl.le v (.fin y) = true) := by
  have hk := (List.getElem?_eq_some_iff.1 ho).1
  unfold AboveAt
  by_cases hjk : k = j
  · subst hjk
    rw [List.getElem?_set_self hk, ho]
    simp [Dbl.max_le_fin hv]
  · rw [List.getElem?_set_ne hjk]
    simp [hjk]

theorem mergeLower_at (l : List (Int × Dbl)) : ∀ (b : List Dbl),
    (∀ cv ∈ l, 0 ≤ cv.1 ∧ cv.1 < b.length ∧ cv.2 ≠ .nan) →
    ∃ b', mergeLower b l = .ok b' ∧ b'.length = b.length ∧
      ∀ (j : Nat) (y : ℚ), AboveAt b' j y ↔
        AboveAt b j y ∧ ∀ cv ∈ l, cv.1 = j → Dbl.le cv.2 (.fin y) = true := by
  induction l with
  | nil => intro b _; exact ⟨b, rfl, rfl, by simp⟩
  | cons cv l ih =>
    intro b h
    obtain ⟨h0, h1, h2⟩ := h cv (by simp)
    obtain ⟨old, ho, hs⟩ := tighten h0 h1 (fun o => Dbl.max o cv.2)
    obtain ⟨b', h3, h4, h5⟩ := ih (b.set cv.1.toNat (Dbl.max old cv.2))
      (fun dv hd => by rw [List.length_set]; exact h dv (by simp [hd]))
    refine ⟨b', ?_, by rw [h4, List.length_set], ?_⟩
    · obtain ⟨c, v⟩ := cv
      unfold mergeLower
      rw [Outcome.bind_eq_ok] at hs
      obtain ⟨o, ho1, ho2⟩ := hs
      rw [ho1]; simp only [Outcome.bind_ok]; simp only at ho2
      rw [ho2]; exact h3
    · intro j y
      rw [h5 j y, aboveAt_set ho h2]
      have : cv.1.toNat = j ↔ cv.1 = (j : Int) := by omega
      rw [this]
      simp only [List.mem_cons, forall_eq_or_imp]
      tauto

theorem walkLower_at {s t} (h : Rel s t) (hrp : RootPlain t) {nc : Nat} :
    ∀ (fuel n : Nat) (r : Rec) (b : List Dbl), t n = some r → r.depth < fuel → b.length = nc →
      (∀ m rm, t.Anc m n → t m = some rm → rm.InRange nc) →
      ∃ b', walkLower fuel s n b = .ok b' ∧ b'.length = nc ∧
        ∀ (j : Nat) (y : ℚ), AboveAt b' j y ↔
          AboveAt b j y ∧ ∀ m rm, t.Anc m n → t m = some rm → rm.LowerAt j y := by
  intro fuel
  induction fuel with
  | zero => intro n r b _ hf; omega
  | succ fuel ih =>
    intro n r b hr hf hb hin
    have hInR := hin n r .refl hr
    unfold walkLower
    rw [if_neg (by omega), vecGet_some (h.live n r hr)]
    simp only [Outcome.bind_ok]
    obtain ⟨b1, hm1, hm2, hm3⟩ := mergeLower_at r.lower b
      (fun cv hcv => by rw [hb]; exact hInR.1 cv (by simp [hcv]))
    have hlow : r.toNode.impliedLower = r.lower := rfl
    have hdn : r.toNode.branchDown = r.down := rfl
    have hvr : r.toNode.branchVariable = r.var := rfl
    have hvl : r.toNode.branchValue = r.value := rfl
    rw [hlow, hm1]
    simp only [Outcome.bind_ok]
    -- the branching decision
    have hstep : ∃ b2, branchLower b1 r.toNode = .ok b2 ∧ b2.length = nc ∧
        ∀ (j : Nat) (y : ℚ), AboveAt b2 j y ↔ AboveAt b j y ∧ r.LowerAt j y := by
      unfold branchLower
      simp only [hdn, hvr, hvl]
      by_cases hc : r.parent ≠ none ∧ r.down = false
      · obtain ⟨hp, hd⟩ := hc
        obtain ⟨hv0, hv1, hv2⟩ := hInR.2 hp
        obtain ⟨old, ho, hs⟩ := tighten (b := b1) hv0 (by rw [hm2, hb]; exact hv1)
          (fun o => Dbl.max o (Dbl.ceil r.value))
        rw [if_pos ⟨by simp [hd], hv0⟩, hs]
        refine ⟨_, rfl, by rw [List.length_set, hm2, hb], ?_⟩
        intro j y
        rw [aboveAt_set ho (Dbl.ceil_ne_nan hv2), hm3 j y]
        have : r.var.toNat = j ↔ r.var = (j : Int) := by omega
        rw [this]
        unfold Rec.LowerAt
        simp [hp, hd, and_assoc]
      · have hcond : ¬ ((!r.down) = true ∧ r.var ≥ 0) := by
          rintro ⟨h1, h2⟩
          have hd : r.down = false := by simpa using h1
          have hp : r.parent = none := by
            by_contra hp; exact hc ⟨hp, hd⟩
          have := (hrp n r hr hp).1
          omega
        rw [if_neg hcond]
        refine ⟨b1, rfl, by rw [hm2, hb], ?_⟩
        intro j y
        rw [hm3 j y]
        unfold Rec.LowerAt
        constructor
        · rintro ⟨h1, h2⟩; exact ⟨h1, h2, fun h3 h4 => absurd ⟨h3, h4⟩ hc⟩
        · rintro ⟨h1, h2, -⟩; exact ⟨h1, h2⟩
    obtain ⟨b2, hs1, hs2, hs3⟩ := hstep
    rw [hs1]
    simp only [Outcome.bind_ok]
    have hw := h.wf n r hr
    cases hp : r.parent with
    | none =>
      have hpar : r.toNode.parent = -1 := by simp [Rec.toNode, hp]
      rw [hpar]
      have hend : walkLower fuel s (-1) b2 = .ok b2 := by cases fuel <;> simp [walkLower]
      refine ⟨b2, hend, hs2, ?_⟩
      intro j y
      rw [hs3 j y]
      constructor
      · rintro ⟨h1, h2⟩
        refine ⟨h1, fun m rm hm hrm => ?_⟩
        rw [(anc_noparent hr hp m).1 hm, hr] at hrm
        simp only [Option.some.injEq] at hrm; subst hrm; exact h2
      · rintro ⟨h1, h2⟩; exact ⟨h1, h2 n r .refl hr⟩
    | some p =>
      rw [hp] at hw; simp only at hw
      obtain ⟨-, rp, hrp', hdp⟩ := hw
      have hpar : r.toNode.parent = (p : Int) := by simp [Rec.toNode, hp]
      rw [hpar]
      have hpo : t.ParentOf p n := ⟨r, hr, hp⟩
      obtain ⟨b3, hw1, hw2, hw3⟩ := ih p rp b2 hrp' (by omega) hs2
        (fun m rm hm hrm => hin m rm ((anc_parent hpo m).2 (Or.inr hm)) hrm)
      refine ⟨b3, hw1, hw2, ?_⟩
      intro j y
      rw [hw3 j y, hs3 j y]
      constructor
      · rintro ⟨⟨h1, h2⟩, h3⟩
        refine ⟨h1, fun m rm hm hrm => ?_⟩
        rcases (anc_parent hpo m).1 hm with rfl | hm
        · rw [hr] at hrm; simp only [Option.some.injEq] at hrm; subst hrm; exact h2
        · exact h3 m rm hm hrm
      · rintro ⟨h1, h2⟩
        exact ⟨⟨h1, h2 n r .refl hr⟩, fun m rm hm hrm =>
          h2 m rm ((anc_parent hpo m).2 (Or.inr hm)) hrm⟩

theorem belowAt_set {b : List Dbl} {k : Nat} {old v : Dbl} (ho : b[k]? = some old) (hv : v ≠ .nan)
    (j : Nat) (y : ℚ) :
    BelowAt (b.set k (Dbl.min old v)) j y ↔
      BelowAt b j y ∧ (k = j → Dbl.le (.fin y) v = true) := by
  have hk := (List.getElem?_eq_some_iff.1 ho).1
  unfold BelowAt
  by_cases hjk : k = j
  · subst hjk
    rw [List.getElem?_set_self hk, ho]
    simp [Dbl.fin_le_min hv]
  · rw [List.getElem?_set_ne hjk]
    simp [hjk]

theorem mergeUpper_at (l : List (Int × Dbl)) : ∀ (b : List Dbl),
    (∀ cv ∈ l, 0 ≤ cv.1 ∧ cv.1 < b.length ∧ cv.2 ≠ .nan) →
    ∃ b', mergeUpper b l = .ok b' ∧ b'.length = b.length ∧
      ∀ (j : Nat) (y : ℚ), BelowAt b' j y ↔
        BelowAt b j y ∧ ∀ cv ∈ l, cv.1 = j → Dbl.le (.fin y) cv.2 = true := by
  induction l with
  | nil => intro b _; exact ⟨b, rfl, rfl, by simp⟩
  | cons cv l ih =>
    intro b h
    obtain ⟨h0, h1, h2⟩ := h cv (by simp)
    obtain ⟨old, ho, hs⟩ := tighten h0 h1 (fun o => Dbl.min o cv.2)
    obtain ⟨b', h3, h4, h5⟩ := ih (b.set cv.1.toNat (Dbl.min old cv.2))
      (fun dv hd => by rw [List.length_set]; exact h dv (by simp [hd]))
    refine ⟨b', ?_, by rw [h4, List.length_set], ?_⟩
    · obtain ⟨c, v⟩ := cv
      unfold mergeUpper
      rw [Outcome.bind_eq_ok] at hs
      obtain ⟨o, ho1, ho2⟩ := hs
      rw [ho1]; simp only [Outcome.bind_ok]; simp only at ho2
      rw [ho2]; exact h3
    · intro j y
      rw [h5 j y, belowAt_set ho h2]
      have : cv.1.toNat = j ↔ cv.1 = (j : Int) := by omega
      rw [this]
      simp only [List.mem_cons, forall_eq_or_imp]
      tauto

theorem walkUpper_at {s t} (h : Rel s t) (hrp : RootPlain t) {nc : Nat} :
    ∀ (fuel n : Nat) (r : Rec) (b : List Dbl), t n = some r → r.depth < fuel → b.length = nc →
      (∀ m rm, t.Anc m n → t m = some rm → rm.InRange nc) →
      ∃ b', walkUpper fuel s n b = .ok b' ∧ b'.length = nc ∧
        ∀ (j : Nat) (y : ℚ), BelowAt b' j y ↔
          BelowAt b j y ∧ ∀ m rm, t.Anc m n → t m = some rm → rm.UpperAt j y := by
  intro fuel
  induction fuel with
  | zero => intro n r b _ hf; omega
  | succ fuel ih =>
    intro n r b hr hf hb hin
    have hInR := hin n r .refl hr
    unfold walkUpper
    rw [if_neg (by omega), vecGet_some (h.live n r hr)]
    simp only [Outcome.bind_ok]
    obtain ⟨b1, hm1, hm2, hm3⟩ := mergeUpper_at r.upper b
      (fun cv hcv => by rw [hb]; exact hInR.1 cv (by simp [hcv]))
    have hlow : r.toNode.impliedUpper = r.upper := rfl
    have hdn : r.toNode.branchDown = r.down := rfl
    have hvr : r.toNode.branchVariable = r.var := rfl
    have hvl : r.toNode.branchValue = r.value := rfl
    rw [hlow, hm1]
    simp only [Outcome.bind_ok]
    -- the branching decision
    have hstep : ∃ b2, branchUpper b1 r.toNode = .ok b2 ∧ b2.length = nc ∧
        ∀ (j : Nat) (y : ℚ), BelowAt b2 j y ↔ BelowAt b j y ∧ r.UpperAt j y := by
      unfold branchUpper
      simp only [hdn, hvr, hvl]
      by_cases hd : r.down = true
      · have hp : r.parent ≠ none := by
          intro hp
          have := (hrp n r hr hp).2
          rw [hd] at this; cases this
        obtain ⟨hv0, hv1, hv2⟩ := hInR.2 hp
        obtain ⟨old, ho, hs⟩ := tighten (b := b1) hv0 (by rw [hm2, hb]; exact hv1)
          (fun o => Dbl.min o (Dbl.floor r.value))
        rw [if_pos hd, hs]
        refine ⟨_, rfl, by rw [List.length_set, hm2, hb], ?_⟩
        intro j y
        rw [belowAt_set ho (Dbl.floor_ne_nan hv2), hm3 j y]
        have : r.var.toNat = j ↔ r.var = (j : Int) := by omega
        rw [this]
        unfold Rec.UpperAt
        simp [hp, hd, and_assoc]
      · rw [if_neg hd]
        refine ⟨b1, rfl, by rw [hm2, hb], ?_⟩
        intro j y
        rw [hm3 j y]
        unfold Rec.UpperAt
        constructor
        · rintro ⟨h1, h2⟩; exact ⟨h1, h2, fun _ h4 => absurd h4 hd⟩
        · rintro ⟨h1, h2, -⟩; exact ⟨h1, h2⟩
    obtain ⟨b2, hs1, hs2, hs3⟩ := hstep
    rw [hs1]
    simp only [Outcome.bind_ok]
    have hw := h.wf n r hr
    cases hp : r.parent with
    | none =>
      have hpar : r.toNode.parent = -1 := by simp [Rec.toNode, hp]
      rw [hpar]
      have hend : walkUpper fuel s (-1) b2 = .ok b2 := by cases fuel <;> simp [walkUpper]
      refine ⟨b2, hend, hs2, ?_⟩
      intro j y
      rw [hs3 j y]
      constructor
      · rintro ⟨h1, h2⟩
        refine ⟨h1, fun m rm hm hrm => ?_⟩
        rw [(anc_noparent hr hp m).1 hm, hr] at hrm
        simp only [Option.some.injEq] at hrm; subst hrm; exact h2
      · rintro ⟨h1, h2⟩; exact ⟨h1, h2 n r .refl hr⟩
    | some p =>
      rw [hp] at hw; simp only at hw
      obtain ⟨-, rp, hrp', hdp⟩ := hw
      have hpar : r.toNode.parent = (p : Int) := by simp [Rec.toNode, hp]
      rw [hpar]
      have hpo : t.ParentOf p n := ⟨r, hr, hp⟩
      obtain ⟨b3, hw1, hw2, hw3⟩ := ih p rp b2 hrp' (by omega) hs2
        (fun m rm hm hrm => hin m rm ((anc_parent hpo m).2 (Or.inr hm)) hrm)
      refine ⟨b3, hw1, hw2, ?_⟩
      intro j y
      rw [hw3 j y, hs3 j y]
      constructor
      · rintro ⟨⟨h1, h2⟩, h3⟩
        refine ⟨h1, fun m rm hm hrm => ?_⟩
        rcases (anc_parent hpo m).1 hm with rfl | hm
        · rw [hr] at hrm; simp only [Option.some.injEq] at hrm; subst hrm; exact h2
        · exact h3 m rm hm hrm
      · rintro ⟨h1, h2⟩
        exact ⟨⟨h1, h2 n r .refl hr⟩, fun m rm hm hrm =>
          h2 m rm ((anc_parent hpo m).2 (Or.inr hm)) hrm⟩

/-- **C17, by column.**  For a live node whose path data refer to existing columns and
contain no NaN, the retrieved bounds of column `j` admit a value iff the root bounds of
that column do and so do all decisions and implied bounds on that column of the node and
its ancestors. -/
theorem C17_retrieved_column {st s t} (h : Exec st s t) {n : Nat} (hn : t.Live n)
    (lb ub : List Dbl) (hlen : lb.length = ub.length)
    (hin : ∀ m rm, t.Anc m n → t m = some rm → rm.InRange lb.length) :
    ∃ lb' ub', s.retrieveLower n lb = .ok lb' ∧ s.retrieveUpper n ub = .ok ub' ∧
      lb'.length = lb.length ∧ ub'.length = ub.length ∧
      ∀ (j : Nat) (y : ℚ),
        (AboveAt lb' j y ↔ AboveAt lb j y ∧
          ∀ m rm, t.Anc m n → t m = some rm → rm.LowerAt j y) ∧
        (BelowAt ub' j y ↔ BelowAt ub j y ∧
          ∀ m rm, t.Anc m n → t m = some rm → rm.UpperAt j y) := by
  have hR := h.rel
  obtain ⟨r, hr⟩ := hn
  have hd := hR.depth_lt hr
  obtain ⟨lb', h1, h2, h3⟩ := walkLower_at hR h.rootPlain (nc := lb.length) s.nodes.length n r lb hr
    hd rfl hin
  obtain ⟨ub', h4, h5, h6⟩ := walkUpper_at hR h.rootPlain (nc := lb.length) s.nodes.length n r ub hr
    hd hlen.symm hin
  refine ⟨lb', ub', ?_, ?_, h2, by rw [h5, hlen], fun j y => ⟨h3 j y, h6 j y⟩⟩
  · unfold retrieveLower; rw [hR.checkedNode hr]; exact h1
  · unfold retrieveUpper; rw [hR.checkedNode hr]; exact h4

/-- A node at depth 1 with a finite and an infinite root bound. -/
example : ∃ st s t, Exec st s t ∧ t.Live 1 ∧
    ∀ m rm, t.Anc m 1 → t m = some rm → rm.InRange ([.ninf, .fin 3] : List Dbl).length := by
  obtain ⟨s, t, he, h1, h2, h3, h4, h5, h6, h7, h8, h9, h10⟩ := exec_two_children
  refine ⟨_, s, t, he, h3, ?_⟩
  intro m rm hm hrm
  rcases (anc_parent h5 m).1 hm with rfl | hm
  · rw [h10] at hrm; simp only [Option.some.injEq] at hrm; subst hrm; simp [Rec.InRange]
  · rw [(anc_noparent h9 rfl m).1 hm, h9] at hrm
    simp only [Option.some.injEq] at hrm; subst hrm; simp [Rec.InRange]

end MipTree
end MiniMip
