/-!
# Outcomes of a call

`Out α` is the result of running a piece of Rust code: a value, a panic (an `assert!`, a checked
slice index, a checked arithmetic operation or a Rust `unwrap`), or undefined behaviour (a raw or
unchecked access outside the memory the code is entitled to, or a read of uninitialised memory).
-/
namespace BitBoost

/-- Outcome of a call. `panic`: the Rust code panics. `ub`: the Rust code performs an access with
undefined behaviour. -/
inductive Out (α : Type) where
  | ok (a : α)
  | panic
  | ub
deriving DecidableEq, Repr

namespace Out

/-- Sequencing: a panic or UB in the first part is the result of the whole. -/
def bind {α β : Type} : Out α → (α → Out β) → Out β
  | .ok a, f => f a
  | .panic, _ => .panic
  | .ub, _ => .ub

instance : Monad Out where
  pure := .ok
  bind := bind

@[simp] theorem pure_eq {α : Type} (a : α) : (pure a : Out α) = .ok a := rfl
@[simp] theorem ok_bind {α β : Type} (a : α) (f : α → Out β) : (Out.ok a >>= f) = f a := rfl
@[simp] theorem panic_bind {α β : Type} (f : α → Out β) : (Out.panic >>= f) = .panic := rfl
@[simp] theorem ub_bind {α β : Type} (f : α → Out β) : (Out.ub >>= f) = .ub := rfl

theorem bind_assoc {α β γ : Type} (x : Out α) (f : α → Out β) (g : β → Out γ) :
    (x >>= f) >>= g = x >>= fun a => f a >>= g := by
  cases x <;> rfl

/-- `assert!(c)`. -/
def assert (c : Bool) : Out Unit := if c then .ok () else .panic

@[simp] theorem assert_true : assert true = .ok () := rfl
@[simp] theorem assert_false : assert false = .panic := rfl

theorem bind_eq_ok {α β : Type} {x : Out α} {f : α → Out β} {b : β} :
    (x >>= f) = .ok b ↔ ∃ a, x = .ok a ∧ f a = .ok b := by
  cases x <;> simp

/-- The call neither panics nor has undefined behaviour. -/
def isOk {α : Type} : Out α → Prop
  | .ok _ => True
  | _ => False

/-- The call has no undefined behaviour (it may panic). -/
def safe {α : Type} : Out α → Prop
  | .ub => False
  | _ => True

end Out
end BitBoost
