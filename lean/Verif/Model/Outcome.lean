/-!
# Rust outcomes

`Outcome ε α` is the result of a Rust function returning `Result<α, ε>` that may also panic.
A function that does not return a `Result` is modelled with `ε := Empty` when it may panic, and as
a plain function when it cannot.
-/

namespace Verif

/-- Result of running Rust code: a value, an `Err`, or a panic. Not a definition of the code: it
is the result type every modelled function uses. -/
inductive Outcome (ε α : Type) where
  | ok (a : α)
  | err (e : ε)
  | panic
  deriving DecidableEq, Repr

namespace Outcome

variable {ε α β : Type}

/-- Sequencing (`?` on a `Result`; a panic unwinds). See src/starks/utils.rs:21. -/
def bind (x : Outcome ε α) (f : α → Outcome ε β) : Outcome ε β :=
  match x with
  | ok a => f a
  | err e => err e
  | panic => panic

instance : Monad (Outcome ε) where
  pure := ok
  bind := bind

@[simp] theorem pure_eq (a : α) : (pure a : Outcome ε α) = ok a := rfl
@[simp] theorem bind_ok (a : α) (f : α → Outcome ε β) : (ok a >>= f) = f a := rfl
@[simp] theorem bind_err (e : ε) (f : α → Outcome ε β) : ((err e : Outcome ε α) >>= f) = err e := rfl
@[simp] theorem bind_panic (f : α → Outcome ε β) : ((panic : Outcome ε α) >>= f) = panic := rfl

instance : LawfulMonad (Outcome ε) := LawfulMonad.mk'
  (id_map := by intro α x; cases x <;> rfl)
  (pure_bind := by intros; rfl)
  (bind_assoc := by intro α β γ x f g; cases x <;> rfl)

/-- `Option::unwrap` / `Result::unwrap` on `None`/`Err`: a panic.
Used at src/cairo/execution_trace.rs:465. -/
def ofOptionUnwrap : Option α → Outcome ε α
  | some a => ok a
  | none => panic

/-- `Option::ok_or(e)?`. Used at src/starks/utils.rs:21. -/
def okOr (o : Option α) (e : ε) : Outcome ε α :=
  match o with
  | some a => ok a
  | none => err e

/-- `Result::unwrap` on the result of a fallible call: an `Err` becomes a panic.
Used at src/cairo/runner/run.rs:210. -/
def unwrapErr {ε' : Type} : Outcome ε α → Outcome ε' α
  | ok a => ok a
  | err _ => panic
  | panic => panic

/-- Whether the outcome is a value. -/
def isOk : Outcome ε α → Bool
  | ok _ => true
  | _ => false

theorem isOk_iff {x : Outcome ε α} : x.isOk = true ↔ ∃ a, x = ok a := by
  cases x <;> simp [isOk]

/-- The value, or a default. Used to name the results of concrete runs. -/
def getD (x : Outcome ε α) (d : α) : α :=
  match x with
  | ok a => a
  | _ => d

theorem eq_ok_getD {x : Outcome ε α} (d : α) (h : x.isOk = true) : x = ok (x.getD d) := by
  cases x <;> simp_all [isOk, getD]

theorem bind_eq_ok {x : Outcome ε α} {f : α → Outcome ε β} {b : β} :
    (x >>= f) = ok b ↔ ∃ a, x = ok a ∧ f a = ok b := by
  cases x <;> simp

theorem bind_eq_panic {x : Outcome ε α} {f : α → Outcome ε β} :
    (x >>= f) = panic ↔ x = panic ∨ ∃ a, x = ok a ∧ f a = panic := by
  cases x <;> simp

end Outcome
end Verif
