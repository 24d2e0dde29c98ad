import Verif.Model.PyCipher
/-
Model of `TempBNs` and of the functions on Python numbers that use it,
/repo/private_join_and_compute/py/crypto_util/ssl_util.py:403-511 and 639-674, under Python 3.

The numbers of the ssl library are cells with handles.  Reading, writing or freeing a number that
has been freed is undefined behaviour (`ub`).  A call that fails is an `AssertionError` of
`SSLProxy` (ssl_util.py:385-396).  Contexts (`BN_CTX`) are only counted.
-/
namespace PJC.Py.Temp
open PJC

/-- The memory of the library: the numbers made by `BN_new`, `none` once freed, and how many
contexts are allocated. -/
structure Store where
  cells : List (Option Int) := []
  ctxs : Nat := 0
  deriving DecidableEq, Repr

/-- The outcome of a Python call. -/
inductive Out (α : Type) where
  | ok (a : α)
  | raises (e : Exc)
  | ub
  deriving DecidableEq, Repr

/-- A Python function that uses the library. -/
abbrev M (α : Type) := Store → Out α × Store

/-- Sequencing: an exception ends the function. -/
def M.bind {α β : Type} (x : M α) (f : α → M β) : M β := fun s =>
  match x s with
  | (.ok a, s') => f a s'
  | (.raises e, s') => (.raises e, s')
  | (.ub, s') => (.ub, s')

/-- Returning a value. -/
def M.ret {α : Type} (a : α) : M α := fun s => (.ok a, s)

/-- Raising an exception. -/
def M.raise {α : Type} (e : Exc) : M α := fun s => (.raises e, s)

/-! ### The library -/

/-- `BN_new`: a new number, zero. -/
def bnNew : M Nat := fun s => (.ok s.cells.length, { s with cells := s.cells ++ [some 0] })

/-- The library reads a number. -/
def bnGet (h : Nat) : M Int := fun s =>
  match s.cells[h]? with
  | some (some v) => (.ok v, s)
  | _ => (.ub, s)

/-- The library writes to a number. -/
def bnSet (h : Nat) (v : Int) : M Unit := fun s =>
  match s.cells[h]? with
  | some (some _) => (.ok (), { s with cells := s.cells.set h (some v) })
  | _ => (.ub, s)

/-- `BN_free`. -/
def bnFree (h : Nat) : M Unit := fun s =>
  match s.cells[h]? with
  | some (some _) => (.ok (), { s with cells := s.cells.set h none })
  | _ => (.ub, s)

/-- ssl_util.py:658-666 `OpenSSLHelper()`: `__new__` returns the one instance and `__init__` runs on
it again, so each call makes a context and forgets the one before. -/
def openSSLHelper : M Unit := fun s => (.ok (), { s with ctxs := s.ctxs + 1 })

/-- `BN_mod_exp` on numbers that are not negative; it fails for modulus zero. -/
def bnModExp (r g x n : Nat) : M Unit :=
  (bnGet g).bind fun vg => (bnGet x).bind fun vx => (bnGet n).bind fun vn =>
    if vn = 0 then M.raise .assertionError else bnSet r (vg ^ vx.toNat % vn)

/-- `BN_mod_inverse`, for a modulus other than one; it fails if there is no inverse. -/
def bnModInverse (r x n : Nat) : M Unit :=
  (bnGet x).bind fun vx => (bnGet n).bind fun vn =>
    if vn = 0 ∨ Int.gcd vx vn ≠ 1 then M.raise .assertionError else bnSet r (BN.inv vx vn)

/-- `BN_rand_range` from a random word; it fails unless the range is positive. -/
def bnRandRange (r n w : Nat) : M Unit :=
  (bnGet n).bind fun vn =>
    if vn ≤ 0 then M.raise .assertionError else bnSet r ((w : Int) % vn)

/-! ### Conversions -/

/-- ssl_util.py:403-406 `LongtoBn`. -/
def longToBn (h : Nat) (a : Int) : M Unit :=
  match longToBytes a with
  | .ok bs => bnSet h (BN.ofBytes bs)
  | .raises e => M.raise e

/-- ssl_util.py:409-415 `BnToLong`: the magnitude. -/
def bnToLong (h : Nat) : M Int :=
  (bnGet h).bind fun v => M.ret (bytesToLong (BN.natToBytes v.natAbs))

/-! ### `TempBNs` -/

/-- A value that is not a list.  A `str` is given by its characters. -/
inductive Item where
  | none
  | int (n : Int)
  | bytes (bs : Bytes)
  | str (cs : List Nat)
  deriving DecidableEq, Repr

/-- A value given to `TempBNs`. -/
inductive Val where
  | item (i : Item)
  | list (is : List Item)
  deriving DecidableEq, Repr

/-- An attribute: a number or a list of numbers. -/
inductive Attr where
  | one (h : Nat)
  | many (hs : List Nat)
  deriving DecidableEq, Repr

/-- A `TempBNs` object: the attributes set and `_args`. -/
structure Temps where
  attrs : List (String × Attr) := []
  args : List Nat := []
  deriving DecidableEq, Repr

/-- The memory that ctypes passes to a `void *` for a `str`: `wchar_t` of four bytes, little-endian. -/
def wide (cs : List Nat) : Bytes :=
  cs.flatMap fun c => [Fin.ofNat 256 c, Fin.ofNat 256 (c / 2 ^ 8), Fin.ofNat 256 (c / 2 ^ 16),
    Fin.ofNat 256 (c / 2 ^ 24)]

/-- ssl_util.py:499-504 `_BytesOrLongToBn`. -/
def bytesOrLongToBn (h : Nat) : Item → M Unit
  | .int n => longToBn h n
  | .str cs => bnSet h (BN.ofBytes ((wide cs).take cs.length))
  | _ => M.ret ()

/-- `if value:` (ssl_util.py:496). -/
def Item.truthy : Item → Bool
  | .none => false
  | .int n => n ≠ 0
  | .bytes bs => bs ≠ []
  | .str cs => cs ≠ []

/-- The names for which `hasattr` is true on a fresh object: those of the class
(ssl_util.py:455-511) and of `object`. -/
def reserved : List String :=
  ["_args", "_HAS_DYNAMIC_ATTRIBUTES", "_BytesOrLongToBn", "__init__", "__enter__", "__exit__",
   "__class__", "__delattr__", "__dict__", "__dir__", "__doc__", "__eq__", "__format__", "__ge__",
   "__getattribute__", "__getstate__", "__gt__", "__hash__", "__init_subclass__", "__le__",
   "__lt__", "__module__", "__ne__", "__new__", "__reduce__", "__reduce_ex__", "__repr__",
   "__setattr__", "__sizeof__", "__str__", "__subclasshook__", "__weakref__"]

/-- `hasattr(self, key)`. -/
def Temps.hasattr (t : Temps) (key : String) : Bool :=
  reserved.contains key || t.attrs.any (·.1 == key)

/-- ssl_util.py:489-491, the loop over a list. -/
def newItems : List Item → M (List Nat)
  | [] => M.ret []
  | i :: rest =>
    bnNew.bind fun h => (bytesOrLongToBn h i).bind fun _ =>
      (newItems rest).bind fun hs => M.ret (h :: hs)

/-- The handles of an attribute. -/
def Attr.handles : Attr → List Nat
  | .one h => [h]
  | .many hs => hs

/-- ssl_util.py:487-497, the numbers for one value.  (The attribute is set before the conversion of a
single value; when that raises, nobody has the object.) -/
def newVal : Val → M Attr
  | .list is =>
    if is = [] then M.raise .assertionError
    else (newItems is).bind fun hs => M.ret (.many hs)
  | .item i =>
    bnNew.bind fun h =>
      (if i.truthy then bytesOrLongToBn h i else M.ret ()).bind fun _ => M.ret (.one h)

/-- ssl_util.py:485-497, the loop of `__init__` over the keyword arguments. -/
def initLoop : List (String × Val) → Temps → M Temps
  | [], t => M.ret t
  | kv :: rest, t =>
    if t.hasattr kv.1 then M.raise .assertionError
    else (newVal kv.2).bind fun a =>
      initLoop rest { attrs := t.attrs ++ [(kv.1, a)], args := t.args ++ a.handles }

/-- ssl_util.py:461-497 `TempBNs(...)`. -/
def init (kwargs : List (String × Val)) : M Temps := initLoop kwargs {}

/-- ssl_util.py:509-511 `__exit__`. -/
def exit : List Nat → M Unit
  | [] => M.ret ()
  | h :: rest => (bnFree h).bind fun _ => exit rest

/-- `with TempBNs(...) as bn: body`.  When the construction raises there is no object and `__exit__`
does not run; otherwise it runs whether the body returns or raises, and the exception goes on. -/
def withTemps {α : Type} (kwargs : List (String × Val)) (body : Temps → M α) : M α :=
  (init kwargs).bind fun t s =>
    match body t s with
    | (.ub, s') => (.ub, s')
    | (.ok a, s') => (exit t.args).bind (fun _ => M.ret a) s'
    | (.raises e, s') => (exit t.args).bind (fun _ => M.raise e) s'

/-- `bn.key`, for a key that was given (other names raise `AttributeError`, which no use here can
meet). -/
def Temps.get (t : Temps) (key : String) : M Nat :=
  match t.attrs.lookup key with
  | some (.one h) => M.ret h
  | _ => fun s => (.ub, s)

/-! ### Functions on Python numbers -/

/-- ssl_util.py:434-438 `GetRandomInRange`, from a random word. -/
def getRandomInRange (start stop : Int) (w : Nat) : M Int :=
  withTemps [("rand", .item .none), ("interval", .item (.int (stop - start)))] fun bn =>
    (bn.get "rand").bind fun r => (bn.get "interval").bind fun n =>
      (bnRandRange r n w).bind fun _ => (bnToLong r).bind fun v => M.ret (v + start)

/-- ssl_util.py:441-445 `ModExp`. -/
def modExp (g x n : Int) : M Int :=
  withTemps [("r", .item .none), ("g", .item (.int g)), ("x", .item (.int x)),
      ("n", .item (.int n))] fun bn =>
    openSSLHelper.bind fun _ =>
      (bn.get "r").bind fun r => (bn.get "g").bind fun hg => (bn.get "x").bind fun hx =>
        (bn.get "n").bind fun hn => (bnModExp r hg hx hn).bind fun _ => bnToLong r

/-- ssl_util.py:448-452 `ModInverse`. -/
def modInverse (x n : Int) : M Int :=
  withTemps [("r", .item .none), ("x", .item (.int x)), ("n", .item (.int n))] fun bn =>
    openSSLHelper.bind fun _ =>
      (bn.get "r").bind fun r => (bn.get "x").bind fun hx => (bn.get "n").bind fun hn =>
        (bnModInverse r hx hn).bind fun _ => bnToLong r

end PJC.Py.Temp
