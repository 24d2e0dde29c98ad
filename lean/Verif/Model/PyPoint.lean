import Verif.Model.PyCipher
/-
Model of the classes `ECPoint` and `EllipticCurve` of
/repo/private_join_and_compute/py/crypto_util/elliptic_curve.py:32-276 as objects, for the points of
one curve.

An object is a cell of a heap that holds a point; a variable is a reference to a cell.  A failing
call of the ssl library is an `AssertionError` (`SSLProxy`).  Two points of different curves,
reference counting and `__del__` are not modelled.
-/
namespace PJC.Py.Pt
open PJC

/-- The ssl library, with addition and the generator of the curve. -/
structure PointLib extends Lib where
  /-- `EC_POINT_add`. -/
  add : RawPoint → RawPoint → RawPoint
  /-- `EC_GROUP_get0_generator`. -/
  generator : RawPoint

/-- The objects. -/
abbrev Heap := List RawPoint

/-- A value passed to an operator of `ECPoint`. -/
inductive Val where
  /-- an `ECPoint` -/
  | point (r : Nat)
  /-- a `BigNum` object with this number, or the address of a number of the library
  (`priv_key_bn`) -/
  | num (n : Int)
  /-- any other `int` -/
  | int (n : Int)
  deriving DecidableEq, Repr

/-- The outcome of a call: `ub` when the library is given an address that is none of its own. -/
inductive Out (α : Type) where
  | ok (a : α)
  | raises (e : Exc)
  /-- a value of the wrong type: `AttributeError` or ctypes' `ArgumentError` -/
  | wrongType
  | ub
  deriving DecidableEq, Repr

/-- The point in a cell. -/
def Heap.pt (h : Heap) (r : Nat) : RawPoint := h.getD r .inf

/-- A new object with the outcome of the model of Model/PyCipher.lean. -/
def alloc (h : Heap) : Py.Out RawPoint → Out Nat × Heap
  | .ok P => (.ok h.length, h ++ [P])
  | .raises e => (.raises e, h)

/-- elliptic_curve.py:42-65 `FromPoint`. -/
def newFromPoint (c : Curve) (h : Heap) (x y : Int) : Out Nat × Heap :=
  if x < 0 ∨ y < 0 then (.raises .valueError, h) else alloc h (fromPoint c x y)

/-- elliptic_curve.py:67-95 `FromLongOrBytes`, with the conversion of a number to bytes. -/
def newFromLongOrBytes (L : PointLib) (c : Curve) (h : Heap) (x : Arg) : Out Nat × Heap :=
  match x with
  | .bytes bs => alloc h (fromBytes L.toLib c bs)
  | .int n =>
    match longToBytes n with
    | .ok bs => alloc h (fromBytes L.toLib c bs)
    | .raises e => (.raises e, h)

/-- elliptic_curve.py:97-101 `GetPointAtInfinity`. -/
def newInfinity (h : Heap) : Out Nat × Heap := (.ok h.length, h ++ [.inf])

/-- elliptic_curve.py:126-143 `__mul__`: a new object. -/
def mul (L : PointLib) (h : Heap) (self : Nat) : Val → Out Nat × Heap
  | .num k => (.ok h.length, h ++ [L.mul k (h.pt self)])
  | .int _ => (.ub, h)
  | .point _ => (.wrongType, h)

/-- elliptic_curve.py:145-156 `__imul__`: the object itself. -/
def imul (L : PointLib) (h : Heap) (self : Nat) : Val → Out Nat × Heap
  | .num k => (.ok self, h.set self (L.mul k (h.pt self)))
  | .int _ => (.ub, h)
  | .point _ => (.wrongType, h)

/-- elliptic_curve.py:158-165 `__add__`: a new object. -/
def add (L : PointLib) (h : Heap) (self : Nat) : Val → Out Nat × Heap
  | .point r => (.ok h.length, h ++ [L.add (h.pt self) (h.pt r)])
  | _ => (.wrongType, h)

/-- elliptic_curve.py:167-173 `__iadd__`: the object itself. -/
def iadd (L : PointLib) (h : Heap) (self : Nat) : Val → Out Nat × Heap
  | .point r => (.ok self, h.set self (L.add (h.pt self) (h.pt r)))
  | _ => (.wrongType, h)

/-- elliptic_curve.py:183-184 `GetAsLong`. -/
def getAsLong (L : PointLib) (c : Curve) (h : Heap) (self : Nat) : Int :=
  bytesToLong (getAsBytes L.toLib c (h.pt self))

/-- elliptic_curve.py:201-208 `__eq__`. -/
def eq (h : Heap) (self : Nat) : Val → Out Bool
  | .point r => .ok (h.pt self = h.pt r)
  | _ => .raises .valueError

/-- elliptic_curve.py:268-276 `GetRandomGenerator`: a copy of the generator is multiplied in place by
`GenerateRandWithStart(One())` of the order (ssl_util.py:991-1000), from a random word. -/
def getRandomGenerator (L : PointLib) (c : Curve) (h : Heap) (w : Nat) : Out Nat × Heap :=
  let h' := h ++ [L.generator]
  imul L h' h.length (.num ((w : Int) % ((c.order : Int) - 1) + 1))

/-! ### Programs -/

/-- The calls that a program can make. -/
inductive Call where
  | fromPoint (x y : Int)
  | fromLongOrBytes (x : Arg)
  | infinity
  | mul (r : Nat) (x : Val)
  | imul (r : Nat) (x : Val)
  | add (r : Nat) (x : Val)
  | iadd (r : Nat) (x : Val)
  | randomGenerator (w : Nat)

/-- One call. -/
def exec (L : PointLib) (c : Curve) (h : Heap) : Call → Out Nat × Heap
  | .fromPoint x y => newFromPoint c h x y
  | .fromLongOrBytes x => newFromLongOrBytes L c h x
  | .infinity => newInfinity h
  | .mul r x => mul L h r x
  | .imul r x => imul L h r x
  | .add r x => add L h r x
  | .iadd r x => iadd L h r x
  | .randomGenerator w => getRandomGenerator L c h w

/-- A program: a list of calls.  (An exception does not stop it: the caller may catch it.) -/
def run (L : PointLib) (c : Curve) (h : Heap) (calls : List Call) : Heap :=
  calls.foldl (fun h q => (exec L c h q).2) h

end PJC.Py.Pt
