import Mathlib.Data.Rat.Floor
import Mathlib.Tactic.Linarith
import Mathlib.Tactic.Ring

/-!
# Doubles with infinities and NaN

`Dbl` models `double` where infinities or NaN matter.  Finite values are exact rationals:
rounding error, underflow and overflow are not modelled, nor are signed zeros.
Comparisons follow IEEE 754 (every comparison with NaN is false, except `!=`).
-/

namespace MiniMip

/-- A `double`: NaN, an infinity or an exact finite value. -/
inductive Dbl where
  | nan
  | ninf
  | fin (q : ℚ)
  | pinf
  deriving Repr, DecidableEq

namespace Dbl

/-- `a < b`. -/
def lt : Dbl → Dbl → Bool
  | nan, _ => false
  | _, nan => false
  | ninf, ninf => false
  | ninf, _ => true
  | fin a, fin b => a < b
  | fin _, pinf => true
  | fin _, ninf => false
  | pinf, _ => false

/-- `a <= b`. -/
def le : Dbl → Dbl → Bool
  | nan, _ => false
  | _, nan => false
  | ninf, _ => true
  | fin a, fin b => a ≤ b
  | fin _, pinf => true
  | fin _, ninf => false
  | pinf, pinf => true
  | pinf, _ => false

/-- `a == b`. -/
def eq : Dbl → Dbl → Bool
  | fin a, fin b => a = b
  | pinf, pinf => true
  | ninf, ninf => true
  | _, _ => false

/-- `a != b`. -/
def ne (a b : Dbl) : Bool := !(eq a b)

/-- `std::max(a, b)`: `(a < b) ? b : a`. -/
def max (a b : Dbl) : Dbl := if lt a b then b else a
/-- `std::min(a, b)`: `(b < a) ? b : a`. -/
def min (a b : Dbl) : Dbl := if lt b a then b else a

/-- `std::floor`. -/
def floor : Dbl → Dbl
  | fin q => fin ⌊q⌋
  | x => x

/-- `std::ceil`. -/
def ceil : Dbl → Dbl
  | fin q => fin ⌈q⌉
  | x => x

/-- `-a`. -/
def neg : Dbl → Dbl
  | nan => nan
  | ninf => pinf
  | fin q => fin (-q)
  | pinf => ninf

/-- `a + b`. -/
def add : Dbl → Dbl → Dbl
  | nan, _ => nan
  | _, nan => nan
  | fin a, fin b => fin (a + b)
  | pinf, ninf => nan
  | ninf, pinf => nan
  | pinf, _ => pinf
  | _, pinf => pinf
  | ninf, _ => ninf
  | _, ninf => ninf

/-- `a - b`. -/
def sub (a b : Dbl) : Dbl := add a (neg b)

@[simp] theorem lt_fin (a b : ℚ) : lt (fin a) (fin b) = true ↔ a < b := by simp [lt]
@[simp] theorem le_fin (a b : ℚ) : le (fin a) (fin b) = true ↔ a ≤ b := by simp [le]
@[simp] theorem le_ninf_fin (a : ℚ) : le ninf (fin a) = true := rfl
@[simp] theorem le_fin_pinf (a : ℚ) : le (fin a) pinf = true := rfl

/-- `max` bounds a finite value from below iff both arguments do; NaN is only harmless as
the first argument. -/
theorem max_le_fin {a b : Dbl} (hb : b ≠ nan) (x : ℚ) :
    le (max a b) (fin x) = true ↔ le a (fin x) = true ∧ le b (fin x) = true := by
  cases a <;> cases b <;> simp_all [max, lt, le]
  rename_i p q
  by_cases h : p < q
  · simp [h]; intro h2; linarith
  · simp [h]; intro h2; linarith

theorem fin_le_min {a b : Dbl} (hb : b ≠ nan) (x : ℚ) :
    le (fin x) (min a b) = true ↔ le (fin x) a = true ∧ le (fin x) b = true := by
  cases a <;> cases b <;> simp_all [min, lt, le]
  rename_i p q
  by_cases h : q < p
  · simp [h]; intro h2; linarith
  · simp [h]; intro h2; linarith

theorem ceil_ne_nan {a : Dbl} (h : a ≠ nan) : ceil a ≠ nan := by cases a <;> simp_all [ceil]
theorem floor_ne_nan {a : Dbl} (h : a ≠ nan) : floor a ≠ nan := by cases a <;> simp_all [floor]

end Dbl

/-- `std::round`: nearest integer, halves away from zero. -/
def roundAway (q : ℚ) : Int := if 0 ≤ q then ⌊q + 1 / 2⌋ else ⌈q - 1 / 2⌉

end MiniMip
