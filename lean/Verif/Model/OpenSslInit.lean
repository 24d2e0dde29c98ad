import Mathlib.Data.List.Basic
/-
Model of /repo/private_join_and_compute/crypto/openssl_init.cc:33-101 and of the order of calls in
the constructor of `Context` (crypto/context.cc:35-45), for an OpenSSL that needs locking callbacks
(with BoringSSL `OpenSSLInit` is empty, openssl_init.cc:96-98).

Threads run interleaved, one step at a time.  The static object `openssl_init` (openssl_init.cc:70)
has been constructed and is not destroyed: static initialisation and the end of the program are not
modelled.
-/
namespace PJC.Ossl

/-- What a thread does: call `OpenSSLInit()`, or, inside a function of the library, take or give back
lock number `n` (`CRYPTO_lock`, with the number passed on as an `int`). -/
inductive Act where
  | init
  | lock (n : Int)
  | unlock (n : Int)
  deriving DecidableEq, Repr

/-- The state of `init_flag` (openssl_init.cc:69): nobody has called, a thread is in
`OpenSSLInitHelper` with `pc` of its statements done, or it has returned. -/
inductive Once where
  | notYet
  | running (t : Nat) (pc : Nat)
  | done
  deriving DecidableEq, Repr

/-- What can have gone wrong: `CHECK_GE` failed, or undefined behaviour. -/
inductive Fault where
  | none
  | crash
  | ub
  deriving DecidableEq, Repr

/-- The program's state.  `holder` says for each mutex which thread has it.  `held` are the locks that
a thread in the library has asked for and not given back; `inited` the threads whose `OpenSSLInit()`
has returned. -/
structure St where
  numLocks : Nat
  once : Once := .notYet
  loads : Nat := 0
  idCallback : Bool := false
  lockCallback : Bool := false
  holder : Nat → Option Nat := fun _ => .none
  todo : Nat → List Act
  held : Nat → List Int := fun _ => []
  inited : Nat → Bool := fun _ => false
  fault : Fault := .none

/-- Change one value of a function. -/
def upd {α : Type} (f : Nat → α) (t : Nat) (a : α) : Nat → α := fun x => if x = t then a else f x

/-- openssl_init.cc:95-98 `std::call_once(init_flag, OpenSSLInitHelper)` by thread `t`, one statement;
`none` while the thread waits for another one. -/
def stepInit (s : St) (t : Nat) (rest : List Act) : Option St :=
  match s.once with
  | .notYet => some { s with once := .running t 0 }
  | .running t' pc =>
    if t' ≠ t then none
    else
      match pc with
      -- openssl_init.cc:88 `LoadErrStrings` (lines 43-51)
      | 0 => some { s with loads := s.loads + 1, once := .running t 1 }
      -- openssl_init.cc:54 `CRYPTO_THREADID_set_callback`
      | 1 => some { s with idCallback := true, once := .running t 2 }
      -- openssl_init.cc:55 `CRYPTO_set_locking_callback`
      | 2 => some { s with lockCallback := true, once := .running t 3 }
      -- the return of `call_once`
      | _ => some { s with once := .done, todo := upd s.todo t rest, inited := upd s.inited t true }
  | .done => some { s with todo := upd s.todo t rest, inited := upd s.inited t true }

/-- openssl_init.cc:77-85 `CryptoLockingCallback` with `CRYPTO_LOCK`, called by the library if it is
set; `none` while the mutex is taken. -/
def stepLock (s : St) (t : Nat) (n : Int) (rest : List Act) : Option St :=
  let s' := { s with todo := upd s.todo t rest, held := upd s.held t (n :: s.held t) }
  if !s.lockCallback then some s'
  else if n < 0 then some { s with fault := .crash }
  else if s.numLocks ≤ n.toNat then some { s with fault := .ub }
  else
    match s.holder n.toNat with
    | .none => some { s' with holder := upd s.holder n.toNat (some t) }
    | .some _ => none

/-- openssl_init.cc:77-85 `CryptoLockingCallback` without `CRYPTO_LOCK`: to unlock a mutex that the
thread does not have is undefined. -/
def stepUnlock (s : St) (t : Nat) (n : Int) (rest : List Act) : Option St :=
  let s' := { s with todo := upd s.todo t rest, held := upd s.held t ((s.held t).erase n) }
  if !s.lockCallback then some s'
  else if n < 0 then some { s with fault := .crash }
  else if s.numLocks ≤ n.toNat then some { s with fault := .ub }
  else if s.holder n.toNat = some t then
    some { s' with holder := upd s.holder n.toNat .none }
  else some { s with fault := .ub }

/-- One step of thread `t`; `none` if it waits, has nothing to do, or the program has ended. -/
def step (s : St) (t : Nat) : Option St :=
  if s.fault ≠ .none then none
  else
    match s.todo t with
    | [] => none
    | .init :: rest => stepInit s t rest
    | .lock n :: rest => stepLock s t n rest
    | .unlock n :: rest => stepUnlock s t n rest

/-- Steps of the threads in the order of the schedule; a thread that waits does nothing. -/
def run (s : St) : List Nat → St
  | [] => s
  | t :: ts => run ((step s t).getD s) ts

/-- The program at its start: `numLocks` mutexes (openssl_init.cc:37-41), and for each thread what it
will do. -/
def start (numLocks : Nat) (todo : Nat → List Act) : St := { numLocks := numLocks, todo := todo }

/-- context.cc:35-45, the constructor of `Context`: the library is used by the initialisers of the
members (`before`: `BN_CTX_new`, `EVP_MD_CTX_create`, four numbers), then `OpenSSLInit()` is called,
then `RAND_status` and `HMAC_CTX_init` (`after`). -/
def contextConstructor (before after : List Act) : List Act := before ++ .init :: after

end PJC.Ossl
