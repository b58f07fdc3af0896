/-!
# Basic vocabulary of the model

Strings are lists of characters so that everything can be evaluated by the kernel.
-/

namespace Bulloak

/-- Rust `String`/`&str`: a sequence of Unicode scalar values. -/
abbrev Str := List Char

/-- `c!"text"` is the literal list of characters of `"text"` (expanded at elaboration time). -/
syntax:max "c!" str : term
open Lean in
macro_rules
  | `(c! $s:str) => do
    let cs := s.getString.toList.map (fun c => Syntax.mkCharLit c)
    `(([$(cs.toArray),*] : List Char))

/-- Outcome of a Rust computation: a value, an error value (`Err`), or a panic
(`unwrap`, `expect`, `assert!`, `unreachable!`, slicing out of range, ...). -/
inductive Res (ε : Type) (α : Type) where
  | ok (a : α)
  | err (e : ε)
  | panic
  deriving DecidableEq, Repr

namespace Res
variable {ε ε' α β : Type}

def bind (x : Res ε α) (f : α → Res ε β) : Res ε β :=
  match x with
  | ok a => f a
  | err e => err e
  | panic => panic

instance : Monad (Res ε) where
  pure := ok
  bind := bind

/-- `Result::map_err`. -/
def mapErr (f : ε → ε') : Res ε α → Res ε' α
  | ok a => ok a
  | err e => err (f e)
  | panic => panic

/-- `Option::ok_or`. -/
def okOr (o : Option α) (e : ε) : Res ε α :=
  match o with
  | some a => ok a
  | none => err e

/-- `Option::unwrap` / `expect`. -/
def unwrap (o : Option α) : Res ε α :=
  match o with
  | some a => ok a
  | none => panic

def isOk : Res ε α → Bool
  | ok _ => true
  | _ => false

@[simp] theorem bind_ok (a : α) (f : α → Res ε β) : (ok a >>= f) = f a := rfl
@[simp] theorem bind_err (e : ε) (f : α → Res ε β) : ((err e : Res ε α) >>= f) = err e := rfl
@[simp] theorem bind_panic (f : α → Res ε β) : ((panic : Res ε α) >>= f) = panic := rfl
@[simp] theorem pure_eq (a : α) : (pure a : Res ε α) = ok a := rfl

theorem bind_eq_ok {x : Res ε α} {f : α → Res ε β} {b : β} :
    (x >>= f) = ok b ↔ ∃ a, x = ok a ∧ f a = ok b := by
  cases x <;> simp

theorem bind_ne_panic {x : Res ε α} {f : α → Res ε β} (hx : x ≠ panic)
    (hf : ∀ a, x = ok a → f a ≠ panic) : (x >>= f) ≠ panic := by
  cases x with
  | ok a => simpa using hf a rfl
  | err e => simp
  | panic => exact absurd rfl hx

end Res

end Bulloak
