import Verif.Model.Dbl
import Mathlib.Data.Int.Log

/-!
# IEEE 754 double precision arithmetic

The finite values of `double` (binary64) as rationals, and rounding to nearest, ties to even, with gradual underflow.
The value of a floating-point operation is the rounded value of the exact result (`round`), and an infinity if that is
beyond the largest double.  Signed zeros are not modelled.
-/

namespace MiniMip
namespace Ieee

/-- A rational with a significand of 53 bits and an exponent of at least -1074: a double but for the largest
exponent. -/
def Rep (x : ℚ) : Prop := ∃ m e : ℤ, |m| < 2 ^ 53 ∧ -1074 ≤ e ∧ x = m * 2 ^ e

/-- The largest finite double. -/
def maxFinite : ℚ := (2 ^ 53 - 1) * 2 ^ 971

/-- The finite doubles. -/
def IsDouble (x : ℚ) : Prop := Rep x ∧ |x| ≤ maxFinite

/-- The exponent of the last bit of doubles of the size of `x`. -/
def expOf (x : ℚ) : ℤ := max (Int.log 2 |x| - 52) (-1074)

/-- The distance of doubles of the size of `x`. -/
def ulp (x : ℚ) : ℚ := 2 ^ expOf x

/-- The nearest integer, the even one in case of a tie. -/
def nearestEven (y : ℚ) : ℤ :=
  if y - ⌊y⌋ < 1 / 2 then ⌊y⌋
  else if 1 / 2 < y - ⌊y⌋ then ⌊y⌋ + 1
  else if ⌊y⌋ % 2 = 0 then ⌊y⌋ else ⌊y⌋ + 1

/-- Rounding with unbounded exponents at the top. -/
def rnd (x : ℚ) : ℚ := nearestEven (x / ulp x) * ulp x

/-- The result of an operation whose exact value is `x`. -/
def round (x : ℚ) : Dbl :=
  if |rnd x| ≤ maxFinite then .fin (rnd x) else if 0 < x then .pinf else .ninf

/-- The result of an operation: finite values are rounded. -/
def rounded : Dbl → Dbl
  | .fin q => round q
  | x => x

/-- `a + b`. -/
def add (a b : Dbl) : Dbl := rounded (Dbl.add a b)

/-- `a - b`. -/
def sub (a b : Dbl) : Dbl := rounded (Dbl.sub a b)

/-- The infinity with the sign of `q`, NaN for zero: the product of `q` and positive infinity. -/
def infTimes (q : ℚ) : Dbl := if q = 0 then .nan else if 0 < q then .pinf else .ninf

/-- `a * b`. -/
def mul : Dbl → Dbl → Dbl
  | .nan, _ => .nan
  | _, .nan => .nan
  | .fin a, .fin b => round (a * b)
  | .fin a, .pinf => infTimes a
  | .fin a, .ninf => infTimes (-a)
  | .pinf, .fin b => infTimes b
  | .ninf, .fin b => infTimes (-b)
  | .pinf, .pinf => .pinf
  | .pinf, .ninf => .ninf
  | .ninf, .pinf => .ninf
  | .ninf, .ninf => .pinf

/-- `a / b`; a zero divisor is taken for the positive zero. -/
def div : Dbl → Dbl → Dbl
  | .nan, _ => .nan
  | _, .nan => .nan
  | .fin a, .fin b => if b = 0 then infTimes a else round (a / b)
  | .fin _, _ => .fin 0
  | .pinf, .fin b => if b < 0 then .ninf else .pinf
  | .ninf, .fin b => if b < 0 then .pinf else .ninf
  | _, _ => .nan

/-- `std::abs`. -/
def abs : Dbl → Dbl
  | .nan => .nan
  | .fin q => .fin |q|
  | _ => .pinf

/-- `std::round`. -/
def roundHalfAway : Dbl → Dbl
  | .fin q => .fin (roundAway q)
  | x => x

end Ieee
end MiniMip
