import Verif.Model.Weierstrass
import Verif.Model.EcCipher
/-
Model of the Java implementation of the commutative cipher,
/repo/private_join_and_compute/java/com/google/privacy/private_join_and_compute/
encryption/commutative/{EcCommutativeCipherBase,EcCommutativeCipher}.java.

`BigInteger` is an integer, `byte[]` a list of unsigned bytes.  What BouncyCastle does is
described by the definitions marked as such; its square root and its scalar
multiplication are parameters.  `int` overflow (bounds of about 2^31 bits) is not modelled.
-/
namespace PJC.Java

/-- The exceptions that can reach the caller. -/
inductive Exc where
  /-- `IllegalArgumentException`, the documented one. -/
  | illegalArgument
  /-- `ArrayIndexOutOfBoundsException`. -/
  | arrayIndex
  /-- `ArithmeticException`. -/
  | arithmetic
  deriving DecidableEq, Repr

/-- The outcome of a Java method: a value or an exception. -/
inductive Out (α : Type) where
  | ok (a : α)
  | throws (e : Exc)
  deriving DecidableEq, Repr

namespace Out

/-- Sequencing: an exception ends the method. -/
def bind {α β : Type} (x : Out α) (f : α → Out β) : Out β :=
  match x with
  | .ok a => f a
  | .throws e => .throws e

instance : Monad Out where
  pure := .ok
  bind := bind

@[simp] theorem ok_bind {α β : Type} (a : α) (f : α → Out β) : (Out.ok a >>= f) = f a := rfl
@[simp] theorem throws_bind {α β : Type} (e : Exc) (f : α → Out β) :
    (Out.throws e >>= f) = .throws e := rfl
@[simp] theorem pure_eq {α : Type} (a : α) : (pure a : Out α) = .ok a := rfl

end Out

/-- `BigInteger.bitLength()`: of the minimal two's complement, without the sign bit. -/
def bitLength (n : Int) : Nat := Nat.size (if 0 ≤ n then n.toNat else (-n - 1).toNat)

/-- `BigInteger.toByteArray()`: minimal big-endian two's complement, `bitLength / 8 + 1`
bytes. -/
def toByteArray (n : Int) : Bytes :=
  let k := bitLength n / 8 + 1
  Curve.padTo k (BN.natToBytes (n % 256 ^ k).toNat)

/-- `new BigInteger(byte[])`: big-endian two's complement. -/
def ofTwosComplement (bs : Bytes) : Int :=
  if 128 ≤ (bs.headD 0).val then BN.ofBytes bs - 256 ^ bs.length else BN.ofBytes bs

/-- EcCommutativeCipherBase.java:274-279, `while (signedArray[leadingZeroes] == 0)` and the
copy of the rest: without a nonzero byte the index runs off the array. -/
def stripZeros : Bytes → Out Bytes
  | [] => .throws .arrayIndex
  | b :: rest => if b = 0 then stripZeros rest else .ok (b :: rest)

/-- EcCommutativeCipherBase.java:272-281 `bigIntegerToByteArrayCppCompatible`. -/
def bigIntegerToByteArray (n : Int) : Out Bytes := stripZeros (toByteArray n)

/-- EcCommutativeCipherBase.java:291-296 `byteArrayToBigIntegerCppCompatible`: a zero byte
is put in front. -/
def byteArrayToBigInteger (bs : Bytes) : Int := ofTwosComplement (0 :: bs)

/-- EcCommutativeCipherBase.java:50-56 `HashType`. -/
inductive HashType where
  | sha256 | sha384 | sha512
  deriving DecidableEq, Repr

/-- EcCommutativeCipherBase.java:69-71 `getHashBitLength`. -/
def HashType.bits : HashType → Nat
  | .sha256 => 256
  | .sha384 => 384
  | .sha512 => 512

/-- EcCommutativeCipherBase.java:232-241, the `switch` over the hash type. -/
def HashType.digest (H : Hashes) : HashType → Bytes → Bytes
  | .sha256 => H.sha256
  | .sha384 => H.sha384
  | .sha512 => H.sha512

/-- EcCommutativeCipherBase.java:227-244, the loop of `randomOracle`; `n` rounds left. -/
def oracleLoop (h : Bytes → Bytes) (len : Nat) (x : Bytes) : Nat → Int → Int → Out Int
  | 0, _, acc => .ok acc
  | n + 1, counter, acc => do
    let counterBytes ← bigIntegerToByteArray counter
    oracleLoop h len x n (counter + 1)
      (acc * 2 ^ len + byteArrayToBigInteger (h (counterBytes ++ x)))

/-- EcCommutativeCipherBase.java:220-246 `randomOracle`.  `shiftRight` rounds down, `mod`
refuses a modulus that is not positive. -/
def randomOracle (H : Hashes) (t : HashType) (x : Bytes) (max : Int) : Out Int := do
  let len := t.bits
  let outputBits := bitLength max + len
  let iter := (outputBits + len - 1) / len
  let excess := iter * len - outputBits
  let out ← oracleLoop (t.digest H) len x iter 1 0
  if max ≤ 0 then .throws .arithmetic else .ok (out / 2 ^ excess % max)

/-- EcCommutativeCipherBase.java:249-253 `checkPrivateKey`. -/
def checkPrivateKey (c : Curve) (key : Int) : Out Unit :=
  if key ≤ 1 ∨ key ≥ c.order then .throws .illegalArgument else .ok ()

/-- A cipher object: the curve, the hash type and the private key
(EcCommutativeCipherBase.java:83-105). -/
structure Cipher where
  curve : Curve
  hashType : HashType
  key : Int
  deriving DecidableEq, Repr

/-- EcCommutativeCipher.java:110-118 `createFromKey`, with `decodePrivateKey`
(EcCommutativeCipherBase.java:113-123). -/
def createFromKey (c : Curve) (t : HashType) (keyBytes : Bytes) : Out Cipher := do
  let key := byteArrayToBigInteger keyBytes
  checkPrivateKey c key
  return { curve := c, hashType := t, key := key }

/-- EcCommutativeCipher.java:132-134 `createFromKey` without a hash type. -/
def createFromKeyDefault (c : Curve) (keyBytes : Bytes) : Out Cipher :=
  createFromKey c .sha256 keyBytes

/-- EcCommutativeCipher.java:80-82 `createWithNewKey`, from the random word `w`: the JDK's
generator (EcCommutativeCipherBase.java:131-139) draws from `[1, order)`. -/
def createWithNewKey (c : Curve) (t : HashType) (w : Nat) : Cipher :=
  { curve := c, hashType := t, key := (w % (c.order - 1) + 1 : Nat) }

/-- EcCommutativeCipherBase.java:260-262 `getPrivateKeyBytes`. -/
def getPrivateKeyBytes (k : Cipher) : Out Bytes := bigIntegerToByteArray k.key

/-- EcCommutativeCipher.java:165-166 `fieldX.multiply(fieldX.square().add(a)).add(b)`, in
the field. -/
def ySquare (c : Curve) (x : Int) : Int :=
  ((x * (((x * x) % c.p + c.a) % c.p)) % c.p + c.b) % c.p

/-- EcCommutativeCipher.java:163-177, the `while (true)` loop of
`hashIntoTheCurveInternal`.  `sqrt` is BouncyCastle's `ECFieldElement.sqrt`, `none` stands
for `null`.  The loop has no bound: `none` means that it has not returned after `fuel`
rounds. -/
def hashLoop (c : Curve) (sqrt : Int → Option Int) (oracle : Bytes → Out Int) :
    Nat → Int → Option (Out RawPoint)
  | 0, _ => none
  | fuel + 1, x =>
    match sqrt (ySquare c x) with
    | some s => some (.ok (.aff x (if BN.isBitSet s 0 then (-s) % c.p else s)))
    | none =>
      match bigIntegerToByteArray x >>= oracle with
      | .ok x' => hashLoop c sqrt oracle fuel x'
      | .throws e => some (.throws e)

/-- EcCommutativeCipher.java:158-178 `hashIntoTheCurveInternal`. -/
def hashIntoTheCurve (c : Curve) (H : Hashes) (t : HashType) (sqrt : Int → Option Int)
    (fuel : Nat) (m : Bytes) : Option (Out RawPoint) :=
  match randomOracle H t m c.p with
  | .ok x => hashLoop c sqrt (fun s => randomOracle H t s c.p) fuel x
  | .throws e => some (.throws e)

/-- BouncyCastle's `ECPoint.getEncoded(true)`: one zero byte for infinity, otherwise the
compressed form. -/
def getEncoded (c : Curve) (P : RawPoint) : Bytes := (c.point2oct P).getD [0]

/-- BouncyCastle's `ECCurve.AbstractFp.decompressPoint`. -/
def decompressPoint (c : Curve) (sqrt : Int → Option Int) (odd : Bool) (x : Int) :
    Out RawPoint :=
  if c.p ≤ x then .throws .illegalArgument
  else
    match sqrt (ySquare c x) with
    | none => .throws .illegalArgument
    | some s => .ok (.aff x (if BN.isBitSet s 0 ≠ odd then (-s) % c.p else s))

/-- BouncyCastle's `ECCurve.decodePoint`: the first byte selects infinity (0), compressed
(2, 3), uncompressed (4) or hybrid (6, 7); reading it from an empty array is an index
error. -/
def decodePoint (c : Curve) (sqrt : Int → Option Int) (bs : Bytes) : Out RawPoint :=
  match bs with
  | [] => .throws .arrayIndex
  | t :: rest =>
    if t = 0 then
      if rest.length = 0 then .ok .inf else .throws .illegalArgument
    else if t = 2 ∨ t = 3 then
      if rest.length = c.fieldLen then decompressPoint c sqrt (t = 3) (BN.ofBytes rest)
      else .throws .illegalArgument
    else if t = 4 ∨ t = 6 ∨ t = 7 then
      if rest.length = 2 * c.fieldLen then
        let x := BN.ofBytes (rest.take c.fieldLen)
        let y := BN.ofBytes (rest.drop c.fieldLen)
        if t ≠ 4 ∧ (BN.isBitSet y 0 ≠ decide (t = 7)) then .throws .illegalArgument
        else if c.onCurve x y then .ok (.aff x y) else .throws .illegalArgument
      else .throws .illegalArgument
    else .throws .illegalArgument

/-- EcCommutativeCipher.java:264-269 `checkPointOnCurve`. -/
def checkPointOnCurve (c : Curve) (sqrt : Int → Option Int) (bs : Bytes) : Out RawPoint := do
  let P ← decodePoint c sqrt bs
  if !c.isOnCurve P then .throws .illegalArgument
  else if Curve.isAtInfinity P then .throws .illegalArgument
  else .ok P

/-- EcCommutativeCipher.java:143-150 `validateCiphertext`: only the documented exception
is caught. -/
def validateCiphertext (c : Curve) (sqrt : Int → Option Int) (bs : Bytes) : Out Bool :=
  match decodePoint c sqrt bs with
  | .ok P => .ok (c.isOnCurve P && !Curve.isAtInfinity P)
  | .throws .illegalArgument => .ok false
  | .throws e => .throws e

/-- EcCommutativeCipher.java:221-224 `encrypt`; `mul` is BouncyCastle's scalar
multiplication. -/
def encrypt (H : Hashes) (sqrt : Int → Option Int) (mul : Int → RawPoint → RawPoint)
    (fuel : Nat) (k : Cipher) (m : Bytes) : Option (Out Bytes) :=
  (hashIntoTheCurve k.curve H k.hashType sqrt fuel m).map fun r => do
    let P ← r
    return getEncoded k.curve (mul k.key P)

/-- EcCommutativeCipher.java:235-238 `reEncrypt`. -/
def reEncrypt (sqrt : Int → Option Int) (mul : Int → RawPoint → RawPoint) (k : Cipher)
    (bs : Bytes) : Out Bytes := do
  let P ← checkPointOnCurve k.curve sqrt bs
  return getEncoded k.curve (mul k.key P)

/-- EcCommutativeCipher.java:250-254 `decrypt`; `modInverse` throws an
`ArithmeticException` when there is no inverse. -/
def decrypt (sqrt : Int → Option Int) (mul : Int → RawPoint → RawPoint) (k : Cipher)
    (bs : Bytes) : Out Bytes := do
  let P ← checkPointOnCurve k.curve sqrt bs
  match BN.modInverse k.key k.curve.order with
  | .ok inv => return getEncoded k.curve (mul inv P)
  | _ => .throws .arithmetic

end PJC.Java
