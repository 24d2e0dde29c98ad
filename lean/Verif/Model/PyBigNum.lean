import Verif.Model.PyCipher
/-
Model of the classes `BigNum` and `BigNumCache` of
/repo/private_join_and_compute/py/crypto_util/ssl_util.py:677-1098 under Python 3.

The objects are cells of a heap; a variable is a reference to a cell.  Functions of the ssl library
are exact (`Fn`), and `none` is a failing call, which `SSLProxy` (ssl_util.py:344-398) turns into an
`AssertionError`.  Reference counting, `__del__` and the library's context are not modelled.
-/
namespace PJC.Py.Bn
open PJC

/-- The exceptions. -/
inductive Exc where
  | valueError
  | assertionError
  | typeError
  deriving DecidableEq, Repr

/-- ssl_util.py:688-693, a `BigNum` object: the number that its `_bn_num` holds, and `immutable`. -/
structure Obj where
  val : Int
  immutable : Bool
  deriving DecidableEq, Repr

/-- All objects, with the class attributes `_ZERO`, `_ONE`, `_TWO` (ssl_util.py:684-686) and the
dictionary and limit of the `BigNumCache` singleton. -/
structure Heap where
  objs : List Obj := []
  zero : Option Nat := none
  one : Option Nat := none
  two : Option Nat := none
  cache : List (Int × Nat) := []
  maxCount : Int := 0
  deriving DecidableEq, Repr

/-- A Python value as these methods take and return them. -/
inductive Val where
  | num (r : Nat)
  | int (n : Int)
  | none
  | notImplemented
  deriving DecidableEq, Repr

/-- The outcome of a call. -/
inductive Out where
  | ok (v : Val)
  | raises (e : Exc)
  deriving DecidableEq, Repr

/-- A function of the ssl library, from the values of its arguments. -/
abbrev Fn := List Int → Option Int

/-- The number in a cell. -/
def Heap.val (h : Heap) (r : Nat) : Int := (h.objs.getD r ⟨0, true⟩).val

/-- The flag of a cell. -/
def Heap.immutable (h : Heap) (r : Nat) : Bool := (h.objs.getD r ⟨0, true⟩).immutable

/-- ssl_util.py:688-693 `__init__` with a new number of the library. -/
def Heap.alloc (h : Heap) (v : Int) : Nat × Heap :=
  (h.objs.length, { h with objs := h.objs ++ [⟨v, true⟩] })

/-- The library writes to the number of a cell. -/
def Heap.write (h : Heap) (r : Nat) (v : Int) : Heap :=
  { h with objs := h.objs.modify r (fun o => { o with val := v }) }

/-- `isinstance(x, BigNum)` for all arguments, with their numbers (ssl_util.py:1047-1048). -/
def Heap.args (h : Heap) : List Val → Option (List Int)
  | [] => some []
  | .num r :: rest => (h.args rest).map (h.val r :: ·)
  | _ :: _ => none

/-- ssl_util.py:1044-1054 `_ComputeResultIntoBigNum`.  `junk` is what a failing call leaves in the
result. -/
def computeInto (junk : Int) (h : Heap) (res : Nat) (f : Fn) (args : List Val) : Out × Heap :=
  match h.args args with
  | none => (.ok .notImplemented, h)
  | some vs =>
    match f vs with
    | some v => (.ok (.num res), h.write res v)
    | none => (.raises .assertionError, h.write res junk)

/-- ssl_util.py:1031-1034 `_ComputeResult`. -/
def computeResult (junk : Int) (h : Heap) (f : Fn) (self : Nat) (args : List Val) : Out × Heap :=
  let (r, h') := h.alloc 0
  computeInto junk h' r f (.num self :: args)

/-- ssl_util.py:1036-1042 `_ComputeResultInPlace`. -/
def computeResultInPlace (junk : Int) (h : Heap) (f : Fn) (self : Nat) (args : List Val) :
    Out × Heap :=
  if h.immutable self then (.raises .valueError, h)
  else computeInto junk h self f (.num self :: args)

/-- `self op other` in Python: `NotImplemented` becomes a TypeError. -/
def operator (junk : Int) (h : Heap) (f : Fn) (self : Nat) (other : Val) : Out × Heap :=
  match computeResult junk h f self [other] with
  | (.ok .notImplemented, h') => (.raises .typeError, h')
  | x => x

/-- `self op= other` in Python: when the method returns `NotImplemented`, the operator without
assignment is tried. -/
def inPlaceOperator (junk : Int) (h : Heap) (f : Fn) (self : Nat) (other : Val) : Out × Heap :=
  match computeResultInPlace junk h f self [other] with
  | (.ok .notImplemented, h') => operator junk h' f self other
  | x => x

/-! ### Functions of the library -/

/-- `BN_add` -/
def bnAdd : Fn
  | [a, b] => some (a + b)
  | _ => none

/-- `BN_sub` -/
def bnSub : Fn
  | [a, b] => some (a - b)
  | _ => none

/-- `BN_mul` -/
def bnMul : Fn
  | [a, b] => some (a * b)
  | _ => none

/-- `BN_nnmod`: the non-negative remainder. -/
def bnNnmod : Fn
  | [a, m] => if m = 0 then none else some (a % m)
  | _ => none

/-- `BN_exp`, for exponents that are not negative. -/
def bnExp : Fn
  | [a, e] => some (a ^ e.natAbs)
  | _ => none

/-- `BN_mod_mul` -/
def bnModMul : Fn
  | [a, b, m] => if m = 0 then none else some (a * b % m)
  | _ => none

/-- `BN_mod_exp`, for exponents that are not negative. -/
def bnModExp : Fn
  | [a, e, m] => if m = 0 then none else some (a ^ e.natAbs % m)
  | _ => none

/-- `BN_gcd` -/
def bnGcd : Fn
  | [a, b] => some (Int.gcd a b)
  | _ => none

/-- `BN_mod_inverse`, for a modulus above 1. -/
def bnModInverse : Fn
  | [a, m] => if m = 0 ∨ Int.gcd a m ≠ 1 then none else some (BN.inv a m)
  | _ => none

/-- An `int` passed as C `int` by ctypes: the low 32 bits, without a check. -/
def cInt (n : Int) : Int := (n + 2 ^ 31) % 2 ^ 32 - 2 ^ 31

/-- `BN_lshift`; a negative count fails. -/
def bnLshift (n : Int) : Fn
  | [a] => if n < 0 then none else some (a * 2 ^ n.toNat)
  | _ => none

/-- `BN_rshift`: the sign is kept, the magnitude is shifted. -/
def bnRshift (n : Int) : Fn
  | [a] => if n < 0 then none else some (Int.tdiv a (2 ^ n.toNat))
  | _ => none

/-! ### Methods -/

/-- ssl_util.py:713-717 `FromLongNumber`. -/
def fromLongNumber (h : Heap) (n : Int) : Out × Heap :=
  if n < 0 then (.raises .valueError, h)
  else let (r, h') := h.alloc n; (.ok (.num r), h')

/-- ssl_util.py:719-724 `FromBytes`. -/
def fromBytes (h : Heap) (bs : Bytes) : Out × Heap :=
  let (r, h') := h.alloc (BN.ofBytes bs)
  (.ok (.num r), h')

/-- ssl_util.py:695-699 `Zero` (no object is false in a condition). -/
def getZero (h : Heap) : Nat × Heap :=
  match h.zero with
  | some r => (r, h)
  | none => let (r, h') := h.alloc 0; (r, { h' with zero := some r })

/-- ssl_util.py:701-705 `One`. -/
def getOne (h : Heap) : Nat × Heap :=
  match h.one with
  | some r => (r, h)
  | none => let (r, h') := h.alloc 1; (r, { h' with one := some r })

/-- ssl_util.py:707-711 `Two`. -/
def getTwo (h : Heap) : Nat × Heap :=
  match h.two with
  | some r => (r, h)
  | none => let (r, h') := h.alloc 2; (r, { h' with two := some r })

/-- ssl_util.py:773-775 `Clone`. -/
def clone (h : Heap) (self : Nat) : Out × Heap :=
  let (r, h') := h.alloc (h.val self)
  (.ok (.num r), h')

/-- ssl_util.py:777-780 `Mutable`. -/
def mutable (h : Heap) (self : Nat) : Out × Heap :=
  (.ok (.num self), { h with objs := h.objs.modify self (fun o => { o with immutable := false }) })

/-- ssl_util.py:818-821 and 827-830, the shifts `>>` and `<<` (`f` is the library function with its
count). -/
def shift (h : Heap) (f : Fn) (self : Nat) : Out × Heap :=
  match f [h.val self] with
  | some v => let (r, h') := h.alloc v; (.ok (.num r), h')
  | none => (.raises .assertionError, h)

/-- ssl_util.py:823-825 and 832-834, the shifts `>>=` and `<<=`. -/
def inPlaceShift (h : Heap) (f : Fn) (self : Nat) : Out × Heap :=
  match f [h.val self] with
  | some v => (.ok (.num self), h.write self v)
  | none => (.raises .assertionError, h)

/-- ssl_util.py:839-840 and 845-877, `__truediv__` (and `/=`, which falls back to it: `__idiv__` is
not a method of Python 3).  The remainder is compared with `Zero()`. -/
def div (h : Heap) (self : Nat) (other : Val) : Out × Heap :=
  let (r, h1) := h.alloc 0
  match other with
  | .num d =>
    if h1.val d = 0 then (.raises .assertionError, h1)
    else
      let h2 := h1.write r (Int.tdiv (h1.val self) (h1.val d))
      let (z, h3) := getZero h2
      if Int.tmod (h1.val self) (h1.val d) ≠ h3.val z then (.raises .valueError, h3)
      else (.ok (.num r), h3)
  | _ => (.ok .none, h1)

/-- ssl_util.py:942-952 `ModInverse`: a failure becomes a ValueError. -/
def modInverse (junk : Int) (h : Heap) (self : Nat) (m : Val) : Out × Heap :=
  match computeResult junk h bnModInverse self [m] with
  | (.raises .assertionError, h') => (.raises .valueError, h')
  | x => x

/-- ssl_util.py:981-989 `GenerateRand`, from a random word; `BN_rand_range` fails unless the range
is positive. -/
def generateRand (h : Heap) (self : Nat) (w : Nat) : Out × Heap :=
  if h.val self ≤ 0 then (.raises .assertionError, h)
  else let (r, h') := h.alloc ((w : Int) % h.val self); (.ok (.num r), h')

/-- ssl_util.py:991-1000 `GenerateRandWithStart`. -/
def generateRandWithStart (junk : Int) (h : Heap) (self : Nat) (start : Val) (w : Nat) : Out × Heap :=
  match operator junk h bnSub self start with
  | (.ok (.num d), h1) =>
    match generateRand h1 d w with
    | (.ok (.num x), h2) => operator junk h2 bnAdd x start
    | x => x
  | x => x

/-- ssl_util.py:1002-1003 `ModNegate`, for a modulus that is a `BigNum`. -/
def modNegate (junk : Int) (h : Heap) (self m : Nat) : Out × Heap :=
  match operator junk h bnNnmod self (.num m) with
  | (.ok (.num x), h1) => operator junk h1 bnSub m (.num x)
  | x => x

/-- ssl_util.py:1005-1006 `AddOne`. -/
def addOne (junk : Int) (h : Heap) (self : Nat) : Out × Heap :=
  let (o, h1) := getOne h
  operator junk h1 bnAdd self (.num o)

/-- ssl_util.py:1008-1009 `SubtractOne`. -/
def subtractOne (junk : Int) (h : Heap) (self : Nat) : Out × Heap :=
  let (o, h1) := getOne h
  operator junk h1 bnSub self (.num o)

/-- ssl_util.py:1060-1066 `GetAsBytes`: the magnitude, big-endian. -/
def getAsBytes (h : Heap) (self : Nat) : Bytes := BN.natToBytes (h.val self).natAbs

/-- ssl_util.py:1056-1058 `GetAsLong`. -/
def getAsLong (h : Heap) (self : Nat) : Int := bytesToLong (getAsBytes h self)

/-- ssl_util.py:1014-1018 `__eq__`. -/
def eq (h : Heap) (self : Nat) : Val → Except Exc Bool
  | .num r => .ok (h.val self = h.val r)
  | _ => .error .valueError

/-- ssl_util.py:1024-1028 `__lt__`. -/
def lt (h : Heap) (self : Nat) : Val → Except Exc Bool
  | .num r => .ok (h.val self < h.val r)
  | _ => .error .valueError

/-- ssl_util.py:1069-1081 `BigNumCache(max_count)`: the one instance, with an empty dictionary. -/
def newCache (h : Heap) (maxCount : Int) : Heap := { h with cache := [], maxCount := maxCount }

/-- ssl_util.py:1083-1098 `Get`. -/
def cacheGet (h : Heap) (n : Int) : Out × Heap :=
  match h.cache.lookup n with
  | some r => (.ok (.num r), h)
  | none =>
    match fromLongNumber h n with
    | (.ok (.num r), h') =>
      if h.maxCount ≤ h.cache.length then (.ok (.num r), h')
      else (.ok (.num r), { h' with cache := (n, r) :: h'.cache })
    | x => x

/-! ### Programs -/

/-- The calls that a program can make. -/
inductive Call where
  | fromLong (n : Int)
  | fromBytes (bs : Bytes)
  | clone (r : Nat)
  | mutable (r : Nat)
  /-- `+ - * % **` -/
  | operator (f : Fn) (r : Nat) (x : Val)
  /-- `+= -= *= %= **=` -/
  | inPlaceOperator (f : Fn) (r : Nat) (x : Val)
  /-- `ModMul ModExp GCD ModSqrt` -/
  | method (f : Fn) (r : Nat) (args : List Val)
  /-- `IModMul IModExp IModSqrt` -/
  | inPlaceMethod (f : Fn) (r : Nat) (args : List Val)
  | lshift (r : Nat) (n : Int)
  | rshift (r : Nat) (n : Int)
  | inPlaceLshift (r : Nat) (n : Int)
  | inPlaceRshift (r : Nat) (n : Int)
  | div (r : Nat) (x : Val)
  | modInverse (r : Nat) (x : Val)
  | generateRand (r : Nat) (w : Nat)
  | generateRandWithStart (r : Nat) (x : Val) (w : Nat)
  | modNegate (r m : Nat)
  | addOne (r : Nat)
  | subtractOne (r : Nat)
  | zero
  | one
  | two
  | newCache (maxCount : Int)
  | cacheGet (n : Int)

/-- One call. -/
def exec (junk : Int) (h : Heap) : Call → Out × Heap
  | .fromLong n => fromLongNumber h n
  | .fromBytes bs => fromBytes h bs
  | .clone r => clone h r
  | .mutable r => mutable h r
  | .operator f r x => operator junk h f r x
  | .inPlaceOperator f r x => inPlaceOperator junk h f r x
  | .method f r args => computeResult junk h f r args
  | .inPlaceMethod f r args => computeResultInPlace junk h f r args
  | .lshift r n => shift h (bnLshift (cInt n)) r
  | .rshift r n => shift h (bnRshift (cInt n)) r
  | .inPlaceLshift r n => inPlaceShift h (bnLshift (cInt n)) r
  | .inPlaceRshift r n => inPlaceShift h (bnRshift (cInt n)) r
  | .div r x => div h r x
  | .modInverse r x => modInverse junk h r x
  | .generateRand r w => generateRand h r w
  | .generateRandWithStart r x w => generateRandWithStart junk h r x w
  | .modNegate r m => modNegate junk h r m
  | .addOne r => addOne junk h r
  | .subtractOne r => subtractOne junk h r
  | .zero => let (r, h') := getZero h; (.ok (.num r), h')
  | .one => let (r, h') := getOne h; (.ok (.num r), h')
  | .two => let (r, h') := getTwo h; (.ok (.num r), h')
  | .newCache m => (.ok .none, newCache h m)
  | .cacheGet n => cacheGet h n

/-- A program: one call after the other; exceptions are caught. -/
def run (junk : Int) (h : Heap) (cs : List Call) : Heap :=
  cs.foldl (fun h c => (exec junk h c).2) h

end PJC.Py.Bn
