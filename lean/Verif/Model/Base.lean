/-
Outcome type shared by the whole model.

In the C++ code a call can return normally, return a non-OK `absl::Status`,
abort the process (failed CHECK / CRYPTO_CHECK, LOG(FATAL), `.value()` on an
error) or have undefined behaviour.  The model keeps the four apart.
-/
namespace PJC

/-- Status codes used by the code base (`absl::StatusCode`);
/repo/private_join_and_compute/util/status.h:30-60 re-exports the constructors. -/
inductive Code where
  | invalidArgument
  | internal
  | notFound
  | alreadyExists
  | unimplemented
  | failedPrecondition
  | unknown
  deriving DecidableEq, Repr

/-- Outcome of a call.  `ok` is `OkStatus`/a `StatusOr` holding a value; `err` a
non-OK status (the message text is not modelled); `crash` an aborted process
(/repo/private_join_and_compute/crypto/openssl_init.h and
/repo/private_join_and_compute/crypto/openssl.inc `CRYPTO_CHECK`, absl `CHECK`);
`ub` undefined behaviour. -/
inductive Res (α : Type u) where
  | ok (a : α)
  | err (c : Code)
  | crash
  | ub
  deriving DecidableEq, Repr

namespace Res

/-- Sequencing: models `PJC_ASSIGN_OR_RETURN` / `PJC_RETURN_IF_ERROR`
(/repo/private_join_and_compute/util/status.inc, status_macros.h): an error is
returned to the caller; a crash or undefined behaviour ends the execution. -/
def bind {α β : Type u} (x : Res α) (f : α → Res β) : Res β :=
  match x with
  | ok a => f a
  | err c => err c
  | crash => crash
  | ub => ub

instance : Monad Res where
  pure := Res.ok
  bind := Res.bind

/-- `StatusOr::value()`: aborts when the status is not OK. -/
def value {α : Type u} (x : Res α) : Res α :=
  match x with
  | ok a => ok a
  | err _ => crash
  | crash => crash
  | ub => ub

/-- The call returned to its caller (with a value or with an error status). -/
def returns {α : Type u} (x : Res α) : Prop :=
  match x with
  | ok _ => True
  | err _ => True
  | crash => False
  | ub => False

instance {α : Type u} (x : Res α) : Decidable x.returns := by
  cases x <;> simp only [returns] <;> infer_instance

/-- The call returned a value. -/
def isOk {α : Type u} (x : Res α) : Prop := ∃ a, x = ok a

/-- The call returned an error status. -/
def isErr {α : Type u} (x : Res α) : Prop := ∃ c, x = err c

@[simp] theorem pure_eq {α : Type u} (a : α) : (pure a : Res α) = ok a := rfl
@[simp] theorem ok_bind {α β : Type u} (a : α) (f : α → Res β) : (ok a >>= f) = f a := rfl
@[simp] theorem err_bind {α β : Type u} (c : Code) (f : α → Res β) :
    ((err c : Res α) >>= f) = err c := rfl
@[simp] theorem crash_bind {α β : Type u} (f : α → Res β) :
    ((crash : Res α) >>= f) = crash := rfl
@[simp] theorem ub_bind {α β : Type u} (f : α → Res β) :
    ((ub : Res α) >>= f) = ub := rfl
@[simp] theorem value_ok {α : Type u} (a : α) : (ok a).value = ok a := rfl
@[simp] theorem value_err {α : Type u} (c : Code) : (err c : Res α).value = crash := rfl
@[simp] theorem returns_ok {α : Type u} (a : α) : (ok a).returns := trivial
@[simp] theorem returns_err {α : Type u} (c : Code) : (err c : Res α).returns := trivial
@[simp] theorem not_returns_crash {α : Type u} : ¬ (crash : Res α).returns := fun h => h
@[simp] theorem not_returns_ub {α : Type u} : ¬ (ub : Res α).returns := fun h => h
@[simp] theorem map_ok {α β : Type u} (f : α → β) (a : α) : f <$> (ok a) = ok (f a) := rfl

theorem bind_eq_ok {α β : Type u} {x : Res α} {f : α → Res β} {b : β} :
    (x >>= f) = ok b ↔ ∃ a, x = ok a ∧ f a = ok b := by
  cases x <;> simp

theorem bind_eq_err {α β : Type u} {x : Res α} {f : α → Res β} {c : Code} :
    (x >>= f) = err c ↔ x = err c ∨ ∃ a, x = ok a ∧ f a = err c := by
  cases x <;> simp

theorem bind_eq_crash {α β : Type u} {x : Res α} {f : α → Res β} :
    (x >>= f) = crash ↔ x = crash ∨ ∃ a, x = ok a ∧ f a = crash := by
  cases x <;> simp

theorem bind_eq_ub {α β : Type u} {x : Res α} {f : α → Res β} :
    (x >>= f) = ub ↔ x = ub ∨ ∃ a, x = ok a ∧ f a = ub := by
  cases x <;> simp

theorem bind_assoc {α β γ : Type u} (x : Res α) (f : α → Res β) (g : β → Res γ) :
    ((x >>= f) >>= g) = (x >>= fun a => f a >>= g) := by
  cases x <;> rfl

instance : LawfulMonad Res := LawfulMonad.mk'
  (id_map := by intro α x; cases x <;> rfl)
  (pure_bind := by intros; rfl)
  (bind_assoc := by intro α β γ x f g; cases x <;> rfl)

theorem returns_bind {α β : Type u} {x : Res α} {f : α → Res β}
    (hx : x.returns) (hf : ∀ a, x = ok a → (f a).returns) : (x >>= f).returns := by
  cases x with
  | ok a => exact hf a rfl
  | err c => trivial
  | crash => exact hx
  | ub => exact hx

end Res

/-- A byte of a `std::string`.  `std::string` compares bytes as unsigned values
(`char_traits<char>::compare`), which is the order of `Fin 256`. -/
abbrev Byte := Fin 256

/-- A `std::string` / `absl::string_view`: a finite byte sequence. -/
abbrev Bytes := List Byte

/-- The byte of an ASCII character literal. -/
def chr (c : Char) : Byte := Fin.ofNat 256 c.toNat

/-- An ASCII string literal as bytes. -/
def str (s : String) : Bytes := s.toList.map chr

end PJC
