import Mathlib.Analysis.Real.Sqrt

/-!
# Doubles computed with square roots

`RDbl` models `double` where a square root is involved and a division by zero can happen:
finite values are exact reals, and there are NaN and the two infinities.  Rounding error,
underflow and overflow are not modelled, nor are negative zeros.  Comparisons follow
IEEE 754: every one with NaN is false.
-/

namespace MiniMip

/-- A `double`: NaN, an infinity or an exact finite value. -/
inductive RDbl where
  | nan
  | ninf
  | fin (x : ℝ)
  | pinf

namespace RDbl

/-- `a / b` for finite `a` and a finite `b` that is not a negative zero. -/
noncomputable def div (a b : ℝ) : RDbl :=
  if b = 0 then (if a = 0 then nan else if 0 < a then pinf else ninf) else fin (a / b)

/-- `w * x` for a finite positive `w`. -/
noncomputable def scale (w : ℝ) : RDbl → RDbl
  | fin x => fin (w * x)
  | y => y

/-- `a + b`. -/
noncomputable def add : RDbl → RDbl → RDbl
  | nan, _ => nan
  | _, nan => nan
  | ninf, pinf => nan
  | pinf, ninf => nan
  | ninf, _ => ninf
  | _, ninf => ninf
  | pinf, _ => pinf
  | _, pinf => pinf
  | fin a, fin b => fin (a + b)

/-- `a < b`. -/
def lt : RDbl → RDbl → Prop
  | nan, _ => False
  | _, nan => False
  | ninf, ninf => False
  | ninf, _ => True
  | fin a, fin b => a < b
  | fin _, pinf => True
  | fin _, ninf => False
  | pinf, _ => False

/-- `a <= b`. -/
def le : RDbl → RDbl → Prop
  | nan, _ => False
  | _, nan => False
  | ninf, _ => True
  | fin a, fin b => a ≤ b
  | fin _, pinf => True
  | fin _, ninf => False
  | pinf, pinf => True
  | pinf, _ => False

end RDbl

end MiniMip
