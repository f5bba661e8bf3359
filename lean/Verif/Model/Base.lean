/-!
Outcomes of running a piece of the C program.

`ok`    the C function returned,
`err`   the C function returned a diagnostic (an `Error*`),
`fatal` the C function printed "fatal error: unreachable statement" and called `exit(1)`,
`ub`    the C program performed an operation with undefined behaviour
        (out-of-bounds access, read of an uninitialised slot, NULL dereference, division by zero ...),
`hang`  the C function does not return.
-/
namespace Umlcc

inductive Out (α : Type u) where
  | ok (a : α)
  | err
  | fatal
  | ub
  | hang
  deriving Repr, DecidableEq

namespace Out

def bind (x : Out α) (f : α → Out β) : Out β :=
  match x with
  | ok a => f a
  | err => err
  | fatal => fatal
  | ub => ub
  | hang => hang

instance : Monad Out where
  pure := Out.ok
  bind := Out.bind

@[simp] theorem ok_bind (a : α) (f : α → Out β) : (Out.ok a >>= f) = f a := rfl
@[simp] theorem err_bind (f : α → Out β) : ((Out.err : Out α) >>= f) = Out.err := rfl
@[simp] theorem fatal_bind (f : α → Out β) : ((Out.fatal : Out α) >>= f) = Out.fatal := rfl
@[simp] theorem ub_bind (f : α → Out β) : ((Out.ub : Out α) >>= f) = Out.ub := rfl
@[simp] theorem hang_bind (f : α → Out β) : ((Out.hang : Out α) >>= f) = Out.hang := rfl
@[simp] theorem pure_eq (a : α) : (pure a : Out α) = Out.ok a := rfl

theorem bind_eq_ok {x : Out α} {f : α → Out β} {b : β} :
    (x >>= f) = .ok b ↔ ∃ a, x = .ok a ∧ f a = .ok b := by
  cases x <;> simp

end Out
end Umlcc
