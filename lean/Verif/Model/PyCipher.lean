import Verif.Model.Weierstrass
import Verif.Model.EcCipher
/-
Model of the Python implementation of the commutative cipher,
/repo/private_join_and_compute/py/{ciphers/ec_cipher.py, crypto_util/elliptic_curve.py,
crypto_util/converters.py, crypto_util/supported_hashes.py} and of `RandomOracle` in
crypto_util/ssl_util.py.

`int` is an integer, `bytes` a list of bytes.  The ssl library is reached through
`SSLProxy` (ssl_util.py:344-398), which turns a failing call into an `AssertionError`.
What the library does is described by the definitions marked as such or is a parameter;
the limit on the depth of Python's recursion is not modelled.
-/
namespace PJC.Py

/-- The exceptions that can reach the caller. -/
inductive Exc where
  | valueError
  | assertionError
  | zeroDivision
  deriving DecidableEq, Repr

/-- The outcome of a Python call. -/
inductive Out (α : Type) where
  | ok (a : α)
  | raises (e : Exc)
  deriving DecidableEq, Repr

namespace Out

/-- Sequencing: an exception ends the function. -/
def bind {α β : Type} (x : Out α) (f : α → Out β) : Out β :=
  match x with
  | .ok a => f a
  | .raises e => .raises e

instance : Monad Out where
  pure := .ok
  bind := bind

@[simp] theorem ok_bind {α β : Type} (a : α) (f : α → Out β) : (Out.ok a >>= f) = f a := rfl
@[simp] theorem raises_bind {α β : Type} (e : Exc) (f : α → Out β) :
    (Out.raises e >>= f) = .raises e := rfl
@[simp] theorem pure_eq {α : Type} (a : α) : (pure a : Out α) = .ok a := rfl

end Out

/-- converters.py:24-37 `_PadZeroBytes`. -/
def padZeroBytes (bs : Bytes) (blocksize : Nat) : Bytes :=
  if bs.length % blocksize ≠ 0 then
    List.replicate (blocksize - bs.length % blocksize) 0 ++ bs
  else bs

/-- converters.py:56-59, the 32-bit units of a number, most significant first.  `fuel`
bounds the `while` loop (the number itself is enough). -/
def units : Nat → Nat → List Nat → List Nat
  | 0, _, acc => acc
  | fuel + 1, n, acc =>
    if n ≠ 0 then units fuel (n / 2 ^ 32) (n % 2 ^ 32 :: acc) else acc

/-- `struct.Struct('>I')` on one 32-bit unit. -/
def packUnit (u : Nat) : Bytes :=
  [Fin.ofNat 256 (u / 2 ^ 24), Fin.ofNat 256 (u / 2 ^ 16), Fin.ofNat 256 (u / 2 ^ 8),
    Fin.ofNat 256 u]

/-- converters.py:62-68, the `for ... else`: without leading zero bytes; one zero byte
when there is nothing else. -/
def dropZeros : Bytes → Bytes
  | [] => [0]
  | b :: rest => if b ≠ 0 then b :: rest else dropZeros rest

/-- converters.py:40-71 `LongToBytes`. -/
def longToBytes (number : Int) (blocksize : Nat := 0) : Out Bytes :=
  if number < 0 then .raises .valueError
  else
    let packed := (units number.toNat number.toNat []).flatMap packUnit
    let bs := dropZeros packed
    .ok (if 0 < blocksize then padZeroBytes bs blocksize else bs)

/-- `struct.Struct('>nI').unpack`: groups of four bytes. -/
def unpackUnits : Bytes → List Nat
  | a :: b :: c :: d :: rest =>
    (a.val * 2 ^ 24 + b.val * 2 ^ 16 + c.val * 2 ^ 8 + d.val) :: unpackUnits rest
  | _ => []

/-- converters.py:81-82, the sum; unit `i` of `n` is shifted by `32 (n - i - 1)`. -/
def sumUnits : List Nat → Nat
  | [] => 0
  | u :: rest => u * 2 ^ (32 * rest.length) + sumUnits rest

/-- converters.py:74-83 `BytesToLong`. -/
def bytesToLong (bs : Bytes) : Int := (sumUnits (unpackUnits (padZeroBytes bs 4)) : Nat)

/-- supported_hashes.py:21-37 `HashType`. -/
inductive HashType where
  | sha256 | sha384 | sha512
  deriving DecidableEq, Repr

/-- supported_hashes.py:35-37, the bit lengths. -/
def HashType.bits : HashType → Nat
  | .sha256 => 256
  | .sha384 => 384
  | .sha512 => 512

/-- supported_hashes.py:28-32 `hash`: the digest as a number. -/
def HashType.hash (H : Hashes) (t : HashType) (data : Bytes) : Nat :=
  (BN.ofBytes (match t with
    | .sha256 => H.sha256 data
    | .sha384 => H.sha384 data
    | .sha512 => H.sha512 data)).toNat

/-- An argument that is either `bytes` or an `int`. -/
inductive Arg where
  | bytes (bs : Bytes)
  | int (n : Int)
  deriving DecidableEq, Repr

/-- ssl_util.py:561-565, the loop of `RandomOracle`; `n` rounds left. -/
def oracleLoop (H : Hashes) (t : HashType) (x : Bytes) : Nat → Nat → Nat → Out Nat
  | 0, _, acc => .ok acc
  | n + 1, i, acc => do
    let counter ← longToBytes i
    oracleLoop H t x n (i + 1) ((acc <<< t.bits) ||| t.hash H (counter ++ x))

/-- ssl_util.py:514-566 `RandomOracle`.  The quotient is computed in `float` (53 bits) and
rounded up; as in `Ctx.iterCount` the exact ceiling is used. -/
def randomOracle (H : Hashes) (t : HashType) (x : Arg) (max : Int) : Out Int := do
  let outputBits := BN.bitLength max + t.bits
  let iter := (outputBits + t.bits - 1) / t.bits
  if 255 < iter then .raises .valueError
  else do
    let excess := iter * t.bits - outputBits
    let bytesX ← match x with
      | .bytes bs => Out.ok bs
      | .int n => longToBytes n
    let out ← oracleLoop H t bytesX iter 1 0
    if max = 0 then .raises .zeroDivision else .ok (((out >>> excess : Nat) : Int).fmod max)

/-- What is needed of the ssl library that ctypes finds: how it decodes points, whether it
accepts a number as private key, its modular square root, scalar multiplication, and the
encoding of the point at infinity. -/
structure Lib where
  /-- `EC_POINT_oct2point`. -/
  oct2point : Bytes → Option RawPoint
  /-- `EC_KEY_set_private_key` (OpenSSL takes any number, BoringSSL only those below the
  order). -/
  acceptsKey : Int → Bool
  /-- `BN_mod_sqrt`. -/
  sqrt : BigNum → BigNum → Res BigNum
  /-- `EC_POINT_mul`. -/
  mul : Int → RawPoint → RawPoint
  /-- `EC_POINT_point2oct` of infinity (a zero byte, or nothing). -/
  infBytes : Bytes

/-- elliptic_curve.py:278-280 `ComputeYSquare`; Python's `%` rounds down. -/
def computeYSquare (c : Curve) (x : Int) : Int := (x ^ 3 + c.a * x + c.b).fmod c.p

/-- elliptic_curve.py:110-124 `CheckValidity`: `EC_POINT_is_on_curve` goes through
`SSLProxy`, so a point off the curve is an `AssertionError`. -/
def checkValidity (c : Curve) (P : RawPoint) : Out RawPoint :=
  if !c.isOnCurve P then .raises .assertionError
  else if Curve.isAtInfinity P then .raises .valueError
  else .ok P

/-- elliptic_curve.py:42-65 `ECPoint.FromPoint`: the library refuses coordinates that are
not on the curve. -/
def fromPoint (c : Curve) (x y : Int) : Out RawPoint :=
  if c.onCurve x y then checkValidity c (.aff x y) else .raises .assertionError

/-- elliptic_curve.py:67-95 `ECPoint.FromLongOrBytes`, for bytes. -/
def fromBytes (L : Lib) (c : Curve) (bs : Bytes) : Out RawPoint :=
  match L.oct2point bs with
  | some P => checkValidity c P
  | none => .raises .assertionError

/-- elliptic_curve.py:282-310 `HashToCurve`: the recursion passes on the number `x`.
`none` means that it has not returned after `fuel` calls. -/
def hashToCurve (L : Lib) (c : Curve) (H : Hashes) (t : HashType) :
    Nat → Arg → Option (Out (Int × Int))
  | 0, _ => none
  | fuel + 1, m =>
    match randomOracle H t m c.p with
    | .raises e => some (.raises e)
    | .ok x =>
      let y2 := computeYSquare c x
      match BN.modExp y2 ((c.p - 1) / 2) c.p with
      | .ok r =>
        if r = 1 then
          match L.sqrt y2 c.p with
          | .ok s =>
            if BN.isBitSet s 0 then some (.ok (x, c.p - s % c.p)) else some (.ok (x, s))
          | _ => some (.raises .assertionError)
        else hashToCurve L c H t fuel (.int x)
      | _ => some (.raises .assertionError)

/-- elliptic_curve.py:252-254 `GetPointByHashingToCurve`. -/
def getPointByHashing (L : Lib) (c : Curve) (H : Hashes) (t : HashType) (fuel : Nat)
    (m : Bytes) : Option (Out RawPoint) :=
  (hashToCurve L c H t fuel (.bytes m)).map fun r => do
    let (x, y) ← r
    fromPoint c x y

/-- elliptic_curve.py:186-199 `GetAsBytes`. -/
def getAsBytes (L : Lib) (c : Curve) (P : RawPoint) : Bytes := (c.point2oct P).getD L.infBytes

/-- elliptic_curve.py:330-359, an `ECKey`, with the curve and the hash type. -/
structure Cipher where
  curve : Curve
  hashType : HashType
  privKey : Int
  decryptKey : Int
  deriving DecidableEq, Repr

/-- elliptic_curve.py:333-359 `ECKey.__init__` (and ec_cipher.py:31-53 `EcCipher.__init__`).
`if priv_key_bytes:` is false for `None` and for the empty string; then a key is generated
from the random word `w`, in `[1, order)`.  `ModInverse` raises `ValueError` when there is
no inverse (ssl_util.py:942-952).  No hash type means SHA-512 (elliptic_curve.py:227-228). -/
def create (L : Lib) (c : Curve) (keyBytes : Option Bytes) (t : Option HashType) (w : Nat) :
    Out Cipher := do
  let key ← match keyBytes with
    | some (b :: rest) =>
      let k := BN.ofBytes (b :: rest)
      if L.acceptsKey k then Out.ok k else .raises .assertionError
    | _ => .ok ((w % (c.order - 1) + 1 : Nat) : Int)
  match BN.modInverse key c.order with
  | .ok inv =>
    return { curve := c, hashType := t.getD .sha512, privKey := key, decryptKey := inv }
  | _ => .raises .valueError

/-- elliptic_curve.py:368-370 `priv_key_bytes` (`BnToBytes`, ssl_util.py:418-424). -/
def privKeyBytes (k : Cipher) : Bytes := BN.natToBytes k.privKey.natAbs

/-- ec_cipher.py:72-82 `EncryptPoint`: `*=` multiplies the caller's point object in place.
The result is the encoding and the point that the object holds afterwards. -/
def encryptPoint (L : Lib) (k : Cipher) (P : RawPoint) : Bytes × RawPoint :=
  let Q := L.mul k.privKey P
  (getAsBytes L k.curve Q, Q)

/-- ec_cipher.py:55-70 `Encrypt`. -/
def encrypt (L : Lib) (H : Hashes) (fuel : Nat) (k : Cipher) (m : Bytes) :
    Option (Out Bytes) :=
  (getPointByHashing L k.curve H k.hashType fuel m).map fun r => do
    let P ← r
    return (encryptPoint L k P).1

/-- ec_cipher.py:84-97 `ReEncrypt`. -/
def reEncrypt (L : Lib) (k : Cipher) (bs : Bytes) : Out Bytes := do
  let P ← fromBytes L k.curve bs
  return (encryptPoint L k P).1

/-- ec_cipher.py:107-127 `DecryptReEncryptedId`. -/
def decrypt (L : Lib) (k : Cipher) (bs : Bytes) : Out Bytes := do
  let P ← fromBytes L k.curve bs
  return getAsBytes L k.curve (L.mul k.decryptKey P)

end PJC.Py
