/-!
# Outcomes of running code

Rust code either returns, panics, or never returns.  All functions of the model that can do
anything but return have result type `Res`.
-/
namespace HT

/-- Why the modelled code panics. -/
inductive Panic where
  /-- `attempt to shift right with overflow` in a build with overflow checks
      (the `>>` in `/repo/src/flag.rs:31`). -/
  | shiftOverflow
  /-- `unwrap()` on `None` / `Err(_)`. -/
  | unwrap
  /-- an explicit `panic!()` (`/repo/src/node/cnode.rs:41`, `/repo/src/node/lnode.rs:111`, ...). -/
  | explicit
  /-- a failed `assert_eq!` (`/repo/src/node/cnode.rs:271`, ...). -/
  | assertion
  /-- `attempt to subtract with overflow` on `usize` in a build with overflow checks. -/
  | subOverflow
  deriving DecidableEq, Repr

/-- Outcome of a computation: a value, a panic, or non-termination. -/
inductive Res (α : Type) where
  | ok (a : α)
  | panic (p : Panic)
  | diverge
  deriving DecidableEq, Repr

namespace Res

/-- Sequencing: the first panic or divergence ends the computation. -/
@[inline] def bind {α β : Type} (x : Res α) (f : α → Res β) : Res β :=
  match x with
  | .ok a => f a
  | .panic p => .panic p
  | .diverge => .diverge

instance : Monad Res where
  pure := .ok
  bind := Res.bind

variable {α β : Type}

@[simp] theorem ok_bind (a : α) (f : α → Res β) : (Res.ok a >>= f) = f a := rfl
@[simp] theorem panic_bind (p : Panic) (f : α → Res β) : (Res.panic p >>= f) = .panic p := rfl
@[simp] theorem diverge_bind (f : α → Res β) : ((Res.diverge : Res α) >>= f) = .diverge := rfl
@[simp] theorem pure_eq (a : α) : (pure a : Res α) = .ok a := rfl

theorem bind_eq_ok {x : Res α} {f : α → Res β} {b : β} :
    (x >>= f) = .ok b ↔ ∃ a, x = .ok a ∧ f a = .ok b := by
  cases x <;> simp

/-- `Option::unwrap` / `Result::unwrap`. -/
def unwrap : Option α → Res α
  | some a => .ok a
  | none => .panic .unwrap

@[simp] theorem unwrap_some (a : α) : unwrap (some a) = .ok a := rfl
@[simp] theorem unwrap_none : unwrap (none : Option α) = .panic .unwrap := rfl

/-- `Result::unwrap`. -/
def unwrapE {ε : Type} : Except ε α → Res α
  | .ok a => .ok a
  | .error _ => .panic .unwrap

@[simp] theorem unwrapE_ok {ε : Type} (a : α) : unwrapE (.ok a : Except ε α) = .ok a := rfl
@[simp] theorem unwrapE_error {ε : Type} (e : ε) :
    unwrapE (.error e : Except ε α) = .panic .unwrap := rfl

/-- The outcome is a normal return. -/
def isOk : Res α → Prop
  | .ok _ => True
  | _ => False

theorem isOk_iff {x : Res α} : x.isOk ↔ ∃ a, x = .ok a := by
  cases x <;> simp [isOk]

end Res
end HT
