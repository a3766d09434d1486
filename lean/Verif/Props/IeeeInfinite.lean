import Verif.Props.ArithVector
import Mathlib.Data.EReal.Inv

/-!
# C88: operations on infinities and NaN

The extended real numbers of Mathlib are the specification: where their operations agree with the limits of the
operations on real numbers, doubles do the same; the undetermined forms are NaN.
-/

namespace MiniMip
namespace Ieee

/-- The extended real number of a double; NaN has none, and the value here does not matter. -/
noncomputable def ext : Dbl → EReal
  | .nan => 0
  | .ninf => ⊥
  | .fin q => ((q : ℝ) : EReal)
  | .pinf => ⊤

/-- An infinity. -/
def IsInf (a : Dbl) : Prop := ext a = ⊤ ∨ ext a = ⊥

theorem ext_fin_ne (q : ℚ) : ext (.fin q) ≠ ⊤ ∧ ext (.fin q) ≠ ⊥ := ⟨EReal.coe_ne_top _, EReal.coe_ne_bot _⟩

theorem not_isInf_fin (q : ℚ) : ¬ IsInf (.fin q) := fun h => h.elim (ext_fin_ne q).1 (ext_fin_ne q).2

theorem infTimes_spec (q : ℚ) : (q = 0 → infTimes q = .nan) ∧
    (q ≠ 0 → infTimes q ≠ .nan ∧ ext (infTimes q) = (q : ℝ) * (⊤ : EReal)) := by
  constructor
  · intro h; simp [infTimes, h]
  · intro h
    rcases lt_or_gt_of_ne h with h1 | h1
    · have : infTimes q = .ninf := by simp [infTimes, h, not_lt.2 h1.le]
      rw [this]
      refine ⟨by simp, ?_⟩
      have h2 : (q : ℝ) < 0 := by exact_mod_cast h1
      rw [EReal.coe_mul_top_of_neg h2]
      rfl
    · have : infTimes q = .pinf := by simp [infTimes, h, h1]
      rw [this]
      refine ⟨by simp, ?_⟩
      have h2 : (0 : ℝ) < q := by exact_mod_cast h1
      rw [EReal.coe_mul_top_of_pos h2]
      rfl

/-- **C88, infinities and NaN.**  Operations with a NaN give NaN.  With an infinite operand sums, products and quotients
are those of the extended real numbers, except that `∞ - ∞`, `0 * ∞` and `∞ / ∞` are NaN.  A number divided by zero is
the infinity with its sign, or NaN if it is zero.  The absolute value is the larger of a number and its negative. -/
theorem C88_infinite_operands (a b : Dbl) :
    ((a = .nan ∨ b = .nan) → add a b = .nan ∧ sub a b = .nan ∧ mul a b = .nan ∧ div a b = .nan) ∧
    (a ≠ .nan → b ≠ .nan → IsInf a ∨ IsInf b →
      (IsInf a ∧ IsInf b ∧ ext a ≠ ext b → add a b = .nan) ∧
      (¬ (IsInf a ∧ IsInf b ∧ ext a ≠ ext b) → add a b ≠ .nan ∧ ext (add a b) = ext a + ext b) ∧
      (IsInf a ∧ IsInf b ∧ ext a = ext b → sub a b = .nan) ∧
      (¬ (IsInf a ∧ IsInf b ∧ ext a = ext b) → sub a b ≠ .nan ∧ ext (sub a b) = ext a - ext b) ∧
      (ext a = 0 ∨ ext b = 0 → mul a b = .nan) ∧
      (¬ (ext a = 0 ∨ ext b = 0) → mul a b ≠ .nan ∧ ext (mul a b) = ext a * ext b) ∧
      (IsInf a ∧ IsInf b → div a b = .nan) ∧
      (¬ (IsInf a ∧ IsInf b) → ext b ≠ 0 → div a b ≠ .nan ∧ ext (div a b) = ext a / ext b)) ∧
    (a ≠ .nan → b ≠ .nan → ext b = 0 → (ext a = 0 → div a b = .nan) ∧ (0 < ext a → div a b = .pinf) ∧
      (ext a < 0 → div a b = .ninf)) ∧
    (abs a = .nan ↔ a = .nan) ∧ (a ≠ .nan → ext (abs a) = max (ext a) (-ext a)) := by
  have hz : ∀ q : ℚ, ext (.fin q) = 0 ↔ q = 0 := fun q => by
    simp only [ext]
    rw [EReal.coe_eq_zero, Rat.cast_eq_zero]
  have hp : ∀ q : ℚ, 0 < ext (.fin q) ↔ 0 < q := fun q => by
    simp only [ext]
    rw [EReal.coe_pos, Rat.cast_pos]
  have hn : ∀ q : ℚ, ext (.fin q) < 0 ↔ q < 0 := fun q => by
    simp only [ext]
    rw [EReal.coe_neg', Rat.cast_lt_zero]
  have it : IsInf .pinf := Or.inl rfl
  have ib : IsInf .ninf := Or.inr rfl
  refine ⟨?_, ?_, ?_, ?_, ?_⟩
  · rintro (rfl | rfl)
    · refine ⟨rfl, rfl, rfl, rfl⟩
    · cases a <;> exact ⟨rfl, rfl, rfl, rfl⟩
  · intro ha hb hi
    have fne : ∀ q : ℚ, ¬ IsInf (.fin q) := not_isInf_fin
    cases a with
    | nan => exact absurd rfl ha
    | fin a =>
      obtain ⟨m1, m2⟩ := infTimes_spec a
      obtain ⟨n1, n2⟩ := infTimes_spec (-a)
      cases b with
      | nan => exact absurd rfl hb
      | fin b => exact (hi.elim (fne a) (fne b)).elim
      | pinf =>
        simp only [hz]
        refine ⟨fun h => absurd h.1 (fne a), fun _ => ⟨by simp [add, rounded, Dbl.add], ?_⟩, fun h => absurd h.1 (fne a),
          fun _ => ⟨by simp [sub, rounded, Dbl.sub, Dbl.neg, Dbl.add], ?_⟩, fun h => ?_, fun h => ?_,
          fun h => absurd h.1 (fne a), fun _ _ => ⟨by simp [div], ?_⟩⟩
        · simp [add, rounded, Dbl.add, ext]
        · simp [sub, rounded, Dbl.sub, Dbl.neg, Dbl.add, ext]
        · rcases h with h | h
          · exact m1 h
          · simp [ext] at h
        · exact m2 fun h' => h (Or.inl h')
        · simp [div, ext]
      | ninf =>
        simp only [hz]
        refine ⟨fun h => absurd h.1 (fne a), fun _ => ⟨by simp [add, rounded, Dbl.add], ?_⟩, fun h => absurd h.1 (fne a),
          fun _ => ⟨by simp [sub, rounded, Dbl.sub, Dbl.neg, Dbl.add], ?_⟩, fun h => ?_, fun h => ?_,
          fun h => absurd h.1 (fne a), fun _ _ => ⟨by simp [div], ?_⟩⟩
        · simp [add, rounded, Dbl.add, ext]
        · simp [sub, rounded, Dbl.sub, Dbl.neg, Dbl.add, ext]
        · rcases h with h | h
          · exact n1 (by simp [h])
          · simp [ext] at h
        · obtain ⟨k1, k2⟩ := n2 fun h' => h (Or.inl (by simpa using h'))
          refine ⟨k1, ?_⟩
          show ext (infTimes (-a)) = _
          rw [k2, Rat.cast_neg, EReal.coe_neg, EReal.neg_mul, ← mul_neg, EReal.neg_top]
          rfl
        · simp [div, ext]
    | pinf =>
      cases b with
      | nan => exact absurd rfl hb
      | fin b =>
        obtain ⟨m1, m2⟩ := infTimes_spec b
        obtain ⟨n1, n2⟩ := infTimes_spec (-b)
        refine ⟨fun h => absurd h.2.1 (fne b), fun _ => ⟨by simp [add, rounded, Dbl.add], ?_⟩,
          fun h => absurd h.2.1 (fne b), fun _ => ⟨by simp [sub, rounded, Dbl.sub, Dbl.neg, Dbl.add], ?_⟩, fun h => ?_,
          fun h => ?_, fun h => absurd h.2 (fne b), fun _ h => ⟨by simp only [div]; split <;> simp, ?_⟩⟩
        · simp [add, rounded, Dbl.add, ext]
        · simp [sub, rounded, Dbl.sub, Dbl.neg, Dbl.add, ext]
        · rcases h with h | h
          · simp [ext] at h
          · exact m1 ((hz b).1 h)
        · obtain ⟨k1, k2⟩ := m2 fun h' => h (Or.inr ((hz b).2 h'))
          refine ⟨k1, ?_⟩
          show ext (infTimes b) = _
          rw [k2, mul_comm]
          rfl
        · have hb0 : b ≠ 0 := fun h' => h ((hz b).2 h')
          simp only [div]
          rcases lt_or_gt_of_ne hb0 with h1 | h1
          · rw [if_pos h1, show ext Dbl.pinf = ⊤ from rfl, EReal.top_div_of_neg_ne_bot ((hn b).2 h1) (ext_fin_ne b).2]
            rfl
          · rw [if_neg (not_lt.2 h1.le), show ext Dbl.pinf = ⊤ from rfl,
              EReal.top_div_of_pos_ne_top ((hp b).2 h1) (ext_fin_ne b).1]
      | pinf =>
        refine ⟨fun h => absurd rfl h.2.2, fun _ => ⟨by simp [add, rounded, Dbl.add], by simp [add, rounded, Dbl.add, ext]⟩,
          fun _ => by simp [sub, rounded, Dbl.sub, Dbl.neg, Dbl.add], fun h => absurd ⟨it, it, rfl⟩ h,
          fun h => by simp [ext] at h, fun _ => ⟨by simp [mul], by simp [mul, ext]⟩, fun _ => rfl,
          fun h => absurd ⟨it, it⟩ h⟩
      | ninf =>
        refine ⟨fun _ => by simp [add, rounded, Dbl.add], fun h => absurd ⟨it, ib, by simp [ext]⟩ h,
          fun h => absurd h.2.2 (by simp [ext]), fun _ => ⟨by simp [sub, rounded, Dbl.sub, Dbl.neg, Dbl.add],
            by simp [sub, rounded, Dbl.sub, Dbl.neg, Dbl.add, ext]⟩,
          fun h => by simp [ext] at h, fun _ => ⟨by simp [mul], by simp [mul, ext]⟩, fun _ => rfl,
          fun h => absurd ⟨it, ib⟩ h⟩
    | ninf =>
      cases b with
      | nan => exact absurd rfl hb
      | fin b =>
        obtain ⟨m1, m2⟩ := infTimes_spec b
        obtain ⟨n1, n2⟩ := infTimes_spec (-b)
        refine ⟨fun h => absurd h.2.1 (fne b), fun _ => ⟨by simp [add, rounded, Dbl.add], ?_⟩,
          fun h => absurd h.2.1 (fne b), fun _ => ⟨by simp [sub, rounded, Dbl.sub, Dbl.neg, Dbl.add], ?_⟩, fun h => ?_,
          fun h => ?_, fun h => absurd h.2 (fne b), fun _ h => ⟨by simp only [div]; split <;> simp, ?_⟩⟩
        · simp [add, rounded, Dbl.add, ext]
        · simp [sub, rounded, Dbl.sub, Dbl.neg, Dbl.add, ext]
        · rcases h with h | h
          · simp [ext] at h
          · exact n1 (by simp [(hz b).1 h])
        · obtain ⟨k1, k2⟩ := n2 fun h' => h (Or.inr ((hz b).2 (by simpa using h')))
          refine ⟨k1, ?_⟩
          show ext (infTimes (-b)) = _
          rw [k2, Rat.cast_neg, EReal.coe_neg, EReal.neg_mul, ← mul_neg, EReal.neg_top, mul_comm]
          rfl
        · have hb0 : b ≠ 0 := fun h' => h ((hz b).2 h')
          simp only [div]
          rcases lt_or_gt_of_ne hb0 with h1 | h1
          · rw [if_pos h1, show ext Dbl.ninf = ⊥ from rfl, EReal.bot_div_of_neg_ne_bot ((hn b).2 h1) (ext_fin_ne b).2]
            rfl
          · rw [if_neg (not_lt.2 h1.le), show ext Dbl.ninf = ⊥ from rfl,
              EReal.bot_div_of_pos_ne_top ((hp b).2 h1) (ext_fin_ne b).1]
      | pinf =>
        refine ⟨fun _ => by simp [add, rounded, Dbl.add], fun h => absurd ⟨ib, it, by simp [ext]⟩ h,
          fun h => absurd h.2.2 (by simp [ext]), fun _ => ⟨by simp [sub, rounded, Dbl.sub, Dbl.neg, Dbl.add],
            by simp [sub, rounded, Dbl.sub, Dbl.neg, Dbl.add, ext]⟩,
          fun h => by simp [ext] at h, fun _ => ⟨by simp [mul], by simp [mul, ext]⟩, fun _ => rfl,
          fun h => absurd ⟨ib, it⟩ h⟩
      | ninf =>
        refine ⟨fun h => absurd rfl h.2.2, fun _ => ⟨by simp [add, rounded, Dbl.add], by simp [add, rounded, Dbl.add, ext]⟩,
          fun _ => by simp [sub, rounded, Dbl.sub, Dbl.neg, Dbl.add], fun h => absurd ⟨ib, ib, rfl⟩ h,
          fun h => by simp [ext] at h, fun _ => ⟨by simp [mul], by simp [mul, ext]⟩, fun _ => rfl,
          fun h => absurd ⟨ib, ib⟩ h⟩
  · intro ha hb h0
    cases b with
    | nan => exact absurd rfl hb
    | ninf => simp [ext] at h0
    | pinf => simp [ext] at h0
    | fin b =>
      obtain rfl := (hz b).1 h0
      cases a with
      | nan => exact absurd rfl ha
      | ninf => simp [ext, div]
      | pinf => simp [ext, div]
      | fin a =>
        rw [hz, hp, hn]
        refine ⟨fun h => ?_, fun h => ?_, fun h => ?_⟩
        · simp [div, infTimes, h]
        · simp [div, infTimes, h, h.ne']
        · simp [div, infTimes, h.ne, h.le]
  · cases a <;> simp [abs]
  · intro ha
    cases a with
    | nan => exact absurd rfl ha
    | ninf => simp [abs, ext]
    | pinf => simp [abs, ext]
    | fin q =>
      simp only [abs, ext]
      rw [← EReal.coe_neg, Rat.cast_abs, abs_eq_max_neg]
      exact (EReal.coe_strictMono.monotone.map_max)

/-- **C88, finite operands.**  A finite sum, difference, product or quotient is a double, and no double is nearer to the
exact one; it is NaN only for a zero divisor, and infinite beyond the largest double only. -/
theorem C88_finite_operands (a b : ℚ) :
    ∀ op exact, (op, exact) ∈ [(add, a + b), (sub, a - b), (mul, a * b)] ∨ (b ≠ 0 ∧ (op, exact) = (div, a / b)) →
      op (.fin a) (.fin b) ≠ .nan ∧ (IsInf (op (.fin a) (.fin b)) → maxFinite < |exact|) ∧
      ∀ z, op (.fin a) (.fin b) = .fin z → IsDouble z ∧ ∀ y, IsDouble y → |z - exact| ≤ |y - exact| := by
  intro op exact h
  have key : op (.fin a) (.fin b) = round exact := by
    rcases h with h | ⟨hb, h⟩
    · simp only [List.mem_cons, List.not_mem_nil, or_false, Prod.mk.injEq] at h
      rcases h with ⟨rfl, rfl⟩ | ⟨rfl, rfl⟩ | ⟨rfl, rfl⟩
      · rfl
      · rw [sub_eq_add_neg]; rfl
      · rfl
    · simp only [Prod.mk.injEq] at h
      obtain ⟨rfl, rfl⟩ := h
      simp [div, hb]
  obtain ⟨h1, -, h3, h4, h5⟩ := AVector.C88_rounding exact
  rw [key]
  refine ⟨h5, fun hi => ?_, fun z hz => ⟨(h1 z hz).1, (h1 z hz).2.1⟩⟩
  rcases hi with hi | hi
  · cases hr : round exact <;> rw [hr] at hi
    · simp [ext] at hi
    · simp [ext] at hi
    · exact absurd hi (ext_fin_ne _).1
    · exact lt_of_lt_of_le (h3 hr) (le_abs_self _)
  · cases hr : round exact <;> rw [hr] at hi
    · simp [ext] at hi
    · exact lt_of_lt_of_le (by have := h4 hr; linarith) (neg_le_abs _)
    · exact absurd hi (ext_fin_ne _).2
    · simp [ext] at hi

/-- Non-vacuity: `-1 * ∞ = -∞`, `1 / 0 = ∞` and `∞ - ∞` is NaN. -/
example : mul (.fin (-1)) .pinf = .ninf ∧ div (.fin 1) (.fin 0) = .pinf ∧ sub .pinf .pinf = .nan := by decide +kernel

end Ieee
end MiniMip
