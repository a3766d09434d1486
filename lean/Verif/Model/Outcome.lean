/-!
# Outcomes of C++ calls

Shared by all model files.  See DESIGN.md, "Modelling conventions".
-/

namespace MiniMip

/-- The ways a C++ call can end.

* `ok a`: normal return (or an OK `absl::Status`/`absl::StatusOr`).
* `error msg`: a non-OK `absl::Status` is returned.
* `abort`: the process is terminated on purpose (`CHECK`, `CHECK_OK`,
  `StatusOr::value()` on an error, `std::abort`).
* `ub`: undefined behaviour (out-of-range access, null dereference, read of an
  uninitialised object, violated precondition of a standard algorithm).

`DCHECK`s are compiled out of release builds and are not outcomes. -/
inductive Outcome (α : Type) where
  | ok (a : α)
  | error (msg : String)
  | abort
  | ub
  deriving Repr, DecidableEq

namespace Outcome

variable {α β : Type}

/-- Sequencing: anything but `ok` ends the computation. -/
def bind (x : Outcome α) (f : α → Outcome β) : Outcome β :=
  match x with
  | ok a => f a
  | error m => error m
  | abort => abort
  | ub => ub

instance : Monad Outcome where
  pure := ok
  bind := bind

@[simp] theorem pure_eq (a : α) : (pure a : Outcome α) = ok a := rfl
@[simp] theorem bind_ok (a : α) (f : α → Outcome β) : (ok a >>= f) = f a := rfl
@[simp] theorem bind_error (m : String) (f : α → Outcome β) : (error m >>= f) = error m := rfl
@[simp] theorem bind_abort (f : α → Outcome β) : ((abort : Outcome α) >>= f) = abort := rfl
@[simp] theorem bind_ub (f : α → Outcome β) : ((ub : Outcome α) >>= f) = ub := rfl

theorem bind_eq_ok {x : Outcome α} {f : α → Outcome β} {b : β} :
    (x >>= f) = ok b ↔ ∃ a, x = ok a ∧ f a = ok b := by
  cases x <;> simp

/-- A `CHECK(b)`: the process is aborted unless `b` holds. -/
def check (b : Bool) : Outcome Unit := if b then ok () else abort

@[simp] theorem check_eq_ok {b : Bool} {u : Unit} : check b = ok u ↔ b = true := by
  cases b <;> simp [check]

end Outcome

end MiniMip
