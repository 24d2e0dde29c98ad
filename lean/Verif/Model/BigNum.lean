import Mathlib.Data.Int.GCD
import Mathlib.Data.Nat.Prime.Basic
import Mathlib.Data.Nat.Size
import Mathlib.Data.Nat.Bitwise
import Verif.Model.Base
/-
Model of the `BigNum` wrapper, /repo/private_join_and_compute/crypto/big_num.{h,cc}.

A `BigNum` is an integer: sign and magnitude of an OpenSSL BIGNUM.  OpenSSL's
arithmetic is modelled by the corresponding integer operation; allocation failure
is not modelled.
-/
namespace PJC

/-- big_num.h:42-60, the `BigNum` class: an arbitrary precision integer. (A notation,
so that integer tactics see `Int` itself.) -/
notation "BigNum" => Int

namespace BN

/-- Little-endian base-256 digits, at most `fuel` of them (helper of `toBytes`). -/
def digitsLE : Nat → Nat → Bytes
  | 0, _ => []
  | fuel + 1, n => if n = 0 then [] else Fin.ofNat 256 (n % 256) :: digitsLE fuel (n / 256)

/-- `BN_bn2bin` on a buffer of `BN_num_bytes`: minimal big-endian encoding of a
magnitude (big_num.cc:100-107). -/
def natToBytes (n : Nat) : Bytes := (digitsLE n n).reverse

/-- big_num.cc:100-107 `BigNum::ToBytes`: CHECKs the sign, then minimal big-endian
bytes (zero is the empty string). -/
def toBytes (a : BigNum) : Res Bytes :=
  if a < 0 then .crash else .ok (natToBytes a.toNat)

/-- big_num.cc:74-79 constructor from bytes (`BN_bin2bn`): big-endian value. -/
def ofBytes (bs : Bytes) : BigNum :=
  ((bs.foldl (fun acc b => acc * 256 + b.val) 0 : Nat) : Int)

/-- big_num.cc:109-115 `BigNum::ToIntValue`: `BN_get_u64` fails iff the magnitude
needs more than 64 bits; the sign is ignored. -/
def toIntValue (a : BigNum) : Res Nat :=
  if a.natAbs < 2 ^ 64 then .ok a.natAbs else .err .invalidArgument

/-- big_num.cc:121 `BigNum::BitLength` (`BN_num_bits`, of the magnitude). -/
def bitLength (a : BigNum) : Nat := Nat.size a.natAbs

/-- big_num.cc:123-126 `BigNum::IsPrime`.  Miller-Rabin is modelled as exact
primality (the error probability is not modelled). -/
def isPrime (a : BigNum) : Prop := 0 ≤ a ∧ Nat.Prime a.natAbs

instance (a : BigNum) : Decidable (isPrime a) := inferInstanceAs (Decidable (_ ∧ _))

/-- big_num.cc:134-138. -/
def isZero (a : BigNum) : Bool := a = 0
/-- big_num.cc:136. -/
def isOne (a : BigNum) : Bool := a = 1
/-- big_num.cc:138 (negative zero is not produced by the operations modelled). -/
def isNonNegative (a : BigNum) : Bool := 0 ≤ a

/-- big_num.cc:140-147 `GetLastNBits` (`BN_mask_bits` on the magnitude, which keeps
the sign). -/
def getLastNBits (a : BigNum) (n : Nat) : BigNum := a.sign * ((a.natAbs % 2 ^ n : Nat) : Int)

/-- big_num.cc:149 `IsBitSet` (of the magnitude). -/
def isBitSet (a : BigNum) (n : Nat) : Bool := a.natAbs.testBit n

/-- big_num.cc:153-157 `Neg`. -/
def neg (a : BigNum) : BigNum := -a
/-- big_num.cc:159-163 `Add`. -/
def add (a b : BigNum) : BigNum := a + b
/-- big_num.cc:165-169 `Mul`. -/
def mul (a b : BigNum) : BigNum := a * b
/-- big_num.cc:171-175 `Sub`. -/
def sub (a b : BigNum) : BigNum := a - b

/-- big_num.cc:177-187 `Div`: `BN_div` fails on a zero divisor, and the remainder
of the truncated division must be zero; otherwise the process aborts. -/
def div (a b : BigNum) : Res BigNum :=
  if b = 0 then .crash else if a.tmod b ≠ 0 then .crash else .ok (a.tdiv b)

/-- big_num.cc:189-197 `DivAndTruncate`. -/
def divAndTruncate (a b : BigNum) : Res BigNum :=
  if b = 0 then .crash else .ok (a.tdiv b)

/-- big_num.cc:199-201 `CompareTo` (`BN_cmp`). -/
def compareTo (a b : BigNum) : Int := if a < b then -1 else if a = b then 0 else 1

/-- big_num.cc:128-132 `IsSafePrime`: `IsPrime` of itself and of `(a-1)/2`, where
`/` is the exact division `Div` (so it aborts when `a - 1` is odd). -/
def isSafePrime (a : BigNum) : Res Bool :=
  if isPrime a then do
    let h ← div (a - 1) 2
    return decide (isPrime h)
  else .ok false

/-- big_num.cc:203-208 `Exp` (`BN_exp`; a negative exponent is used by magnitude). -/
def exp (a e : BigNum) : BigNum := a ^ e.natAbs

/-- big_num.cc:210-214 `Mod` (`BN_nnmod`): least non-negative residue; a zero
modulus aborts. -/
def mod (a m : BigNum) : Res BigNum := if m = 0 then .crash else .ok (a % m)

/-- big_num.cc:216-221 `ModAdd`. -/
def modAdd (a b m : BigNum) : Res BigNum := mod (a + b) m
/-- big_num.cc:223-228 `ModSub`. -/
def modSub (a b m : BigNum) : Res BigNum := mod (a - b) m
/-- big_num.cc:230-235 `ModMul`. -/
def modMul (a b m : BigNum) : Res BigNum := mod (a * b) m
/-- big_num.cc:246-250 `ModSqr`. -/
def modSqr (a m : BigNum) : Res BigNum := mod (a * a) m

/-- big_num.cc:237-244 `ModExp`: CHECKs the exponent's sign; `BN_mod_exp` rejects a
zero modulus. -/
def modExp (a e m : BigNum) : Res BigNum :=
  if e < 0 then .crash else if m = 0 then .crash else .ok (a ^ e.toNat % m)

/-- Extended Euclid keeping the cofactor of `a` (how `BN_mod_inverse` computes the
inverse; helper of `modInverse`). -/
def xgcd : Nat → Int → Int → Int → Int → Int
  | 0, _, _, s0, _ => s0
  | fuel + 1, r0, r1, s0, s1 =>
    if r1 = 0 then s0 else xgcd fuel r1 (r0 % r1) s1 (s0 - r0 / r1 * s1)

/-- The inverse of `a` modulo `m` when `gcd(a, m) = 1` (helper of `modInverse`). -/
def inv (a m : Int) : Int := xgcd ((a % m).natAbs + 1) m (a % m) 0 1 % m

/-- big_num.cc:252-259 `ModInverse`: `BN_mod_inverse` fails exactly when the
argument is not invertible; the result is the least non-negative inverse.  (The
modulus is positive in every use; a non-positive one is treated as not invertible.) -/
def modInverse (a m : BigNum) : Res BigNum :=
  if 0 < m ∧ Int.gcd a m = 1 then .ok (inv a m) else .err .invalidArgument

/-- big_num.cc:268-273 `ModNegate`: returns *this when zero, else `m - Mod(m)`. -/
def modNegate (a m : BigNum) : Res BigNum :=
  if a = 0 then .ok a else do
    let r ← mod a m
    return m - r

/-- big_num.cc:275-279 `Lshift` (`BN_lshift` shifts the magnitude; a negative
amount is rejected and aborts). -/
def lshift (a : BigNum) (n : Int) : Res BigNum :=
  if n < 0 then .crash else .ok (a * 2 ^ n.toNat)

/-- big_num.cc:281-285 `Rshift` (shifts the magnitude, i.e. truncates towards 0). -/
def rshift (a : BigNum) (n : Int) : Res BigNum :=
  if n < 0 then .crash else .ok (a.tdiv (2 ^ n.toNat))

/-- big_num.cc:287-291 `Gcd` (`BN_gcd`, non-negative). -/
def gcd (a b : BigNum) : BigNum := (Int.gcd a b : Int)

end BN
end PJC
