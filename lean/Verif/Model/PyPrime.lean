import Verif.Model.PyBigNum
import Mathlib.Analysis.SpecialFunctions.Log.Basic
/-
Model of the predicates of the class `BigNum`,
/repo/private_join_and_compute/py/crypto_util/ssl_util.py:755-784, and of what a Python `set` does
with objects of the class.
-/
namespace PJC.Py.Bn
open PJC

/-- ssl_util.py:757 and 762, the number of rounds for an error probability; `none` is the ValueError
of `math.log`.  (Rounding of floating-point numbers is not modelled.) -/
noncomputable def rounds (ε : ℝ) : Option Int :=
  if ε ≤ 0 then none else some ⌈-Real.log ε / Real.log 4⌉

/-- ssl_util.py:755-758 `IsPrime`; `test` is `BN_is_prime_ex`, from the number and the rounds, with
result 1, 0, or -1 for an error.  `SSLProxy` does not look at the result (ssl_util.py:370). -/
noncomputable def isPrime (test : Int → Int → Int) (ε : ℝ) (h : Heap) (self : Nat) : Except Exc Bool :=
  match rounds ε with
  | none => .error .valueError
  | some k => .ok (test (h.val self) k != 0)

/-- ssl_util.py:760-764 `IsSafePrime`; the two tests draw their randomness separately. -/
noncomputable def isSafePrime (junk : Int) (test test' : Int → Int → Int) (ε : ℝ) (h : Heap)
    (self : Nat) : Except Exc Bool :=
  match isPrime test ε h self with
  | .error e => .error e
  | .ok false => .ok false
  | .ok true =>
    let (one, h1) := getOne h
    match operator junk h1 bnSub self (.num one) with
    | (.raises e, _) => .error e
    | (.ok (.num d), h2) =>
      let (two, h3) := getTwo h2
      match div h3 d (.num two) with
      | (.raises e, _) => .error e
      | (.ok (.num q), h4) => isPrime test' ε h4 q
      | (.ok _, _) => .error .typeError
    | (.ok _, _) => .error .typeError

/-- ssl_util.py:766-768 `IsBitSet` (`BN_is_bit_set`: of the magnitude, 0 for a negative position). -/
def isBitSet (h : Heap) (self : Nat) (n : Int) : Bool :=
  if cInt n < 0 then false else (h.val self).natAbs.testBit (cInt n).toNat

/-- ssl_util.py:770-771 `BitLength` (`BN_num_bits`, of the magnitude). -/
def bitLength (h : Heap) (self : Nat) : Nat := Nat.size (h.val self).natAbs

/-- ssl_util.py:782-783 `__hash__`: of the address of the number (which is different for every
object) and the flag; `hash` is Python's. -/
def hashOf (hash : Nat × Bool → Int) (h : Heap) (self : Nat) : Int := hash (self, h.immutable self)

/-- A Python `set` of `BigNum`s: each entry has the hash that the object had when it was added. -/
abbrev PySet := List (Int × Nat)

/-- `x in s`: an entry with the same hash that is the same object or equal (`__eq__`). -/
def PySet.contains (hash : Nat × Bool → Int) (h : Heap) (s : PySet) (x : Nat) : Bool :=
  s.any fun e => e.1 == hashOf hash h x && (e.2 == x || h.val e.2 == h.val x)

/-- `s.add(x)`. -/
def PySet.add (hash : Nat × Bool → Int) (h : Heap) (s : PySet) (x : Nat) : PySet :=
  if s.contains hash h x then s else (hashOf hash h x, x) :: s

end PJC.Py.Bn
