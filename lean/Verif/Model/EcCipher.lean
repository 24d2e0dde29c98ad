import Verif.Model.Ec
import Verif.Model.ElGamal
/-
Model of /repo/private_join_and_compute/crypto/ec_commutative_cipher.{h,cc}.
-/
namespace PJC

/-- ec_commutative_cipher.h:92-97 `HashType`; `other` is any integer outside the enum
(ValidateHashType, ec_commutative_cipher.cc:57-64). -/
inductive HashType where
  | sha256 | sha384 | sha512 | sswuRo | other
  deriving DecidableEq, Repr

variable {G : Type} [AddCommGroup G] [DecidableEq G]

/-- ec_commutative_cipher.h:196-208, the state of a cipher object. -/
structure EcCipher (G : Type) where
  group : EcGroup G
  privateKey : BigNum
  privateKeyInverse : BigNum
  hashType : HashType

namespace EcCipher

/-- ec_commutative_cipher.cc:33 `kEcCommutativeCipherDst`. -/
def dst : Bytes := str "ECCommutativeCipher"

/-- ec_commutative_cipher.cc:57-60 `ValidateHashType`. -/
def validateHashType (t : HashType) : Bool := t ≠ .other

/-- ec_commutative_cipher.cc:38-42 `InvertPrivateScalar`: `scalar^(order-2) mod order`. -/
def invertPrivateScalar (k order : BigNum) : Res BigNum := BN.modExp k (order - 2) order

/-- ec_commutative_cipher.cc:46-55, constructor. -/
def make (E : EcGroup G) (k : BigNum) (t : HashType) : Res (EcCipher G) := do
  let inv ← invertPrivateScalar k E.order
  return { group := E, privateKey := k, privateKeyInverse := inv, hashType := t }

/-- ec_commutative_cipher.cc:66-80 `CreateWithNewKey`.  `curve` is the result of
`ECGroup::Create(curve_id)`, `w` the random word. -/
def createWithNewKey (curve : Res (EcGroup G)) (t : HashType) (w : Nat) :
    Res (EcCipher G) := do
  let E ← curve
  if !validateHashType t then .err .invalidArgument
  else do
    let k ← E.generatePrivateKey w
    make E k t

/-- ec_commutative_cipher.cc:82-101 `CreateFromKey`. -/
def createFromKey (curve : Res (EcGroup G)) (keyBytes : Bytes) (t : HashType) :
    Res (EcCipher G) := do
  let E ← curve
  if !validateHashType t then .err .invalidArgument
  else do
    let k := BN.ofBytes keyBytes
    E.checkPrivateKey k
    make E k t

/-- ec_commutative_cipher.cc:103-122 `CreateWithKeyFromSeed`; `none` means that the
PRF has not returned within `fuel` calls. -/
def createWithKeyFromSeed (H : Hashes) (fuel : Nat) (curve : Res (EcGroup G))
    (seed tag : Bytes) (t : HashType) : Option (Res (EcCipher G)) :=
  match curve with
  | .ok E =>
    if seed.length < 16 then some (.err .invalidArgument)
    else if !validateHashType t then some (.err .invalidArgument)
    else
      match Ctx.prf H fuel seed tag E.order with
      | none => none
      | some k => some (k >>= fun k => make E k t)
  | .err c => some (.err c)
  | .crash => some .crash
  | .ub => some .ub

/-- ec_commutative_cipher.cc:201-218 `HashToTheCurveInternal`. -/
def hashToTheCurveInternal (c : EcCipher G) (a : Bytes) : Res G :=
  match c.hashType with
  | .sha512 => c.group.hashSha512 a
  | .sha384 => c.group.hashSha384 a
  | .sha256 => c.group.hashSha256 a
  | .sswuRo => c.group.hashSswuRo a dst
  | .other => .err .invalidArgument

/-- ec_commutative_cipher.cc:220-226 `HashToTheCurve`. -/
def hashToTheCurve (c : EcCipher G) (a : Bytes) : Res Bytes := do
  let P ← c.hashToTheCurveInternal a
  c.group.toBytesCompressed P

/-- ec_commutative_cipher.cc:150-152 `Encrypt(point)` (`ECPoint::Mul`,
ec_point.cc:91-99). -/
def encryptPoint (c : EcCipher G) (P : G) : Res G := .ok (c.privateKey • P)

/-- ec_commutative_cipher.cc:124-135 `Encrypt`. -/
def encrypt (c : EcCipher G) (a : Bytes) : Res Bytes := do
  let P ← c.hashToTheCurveInternal a
  let Q ← c.encryptPoint P
  c.group.toBytesCompressed Q

/-- ec_commutative_cipher.cc:137-148 `ReEncrypt`. -/
def reEncrypt (c : EcCipher G) (ct : Bytes) : Res Bytes := do
  let P ← c.group.createECPoint ct
  let Q ← c.encryptPoint P
  c.group.toBytesCompressed Q

/-- ec_commutative_cipher.cc:154-186 `ReEncryptElGamalCiphertext`. -/
def reEncryptElGamal (c : EcCipher G) (ct : Bytes × Bytes) : Res (Bytes × Bytes) := do
  let u ← c.group.createECPoint ct.1
  let e ← c.group.createECPoint ct.2
  let r ← ElGamal.exp { u := u, e := e } c.privateKey
  let su ← c.group.toBytesCompressed r.u
  let se ← c.group.toBytesCompressed r.e
  return (su, se)

/-- ec_commutative_cipher.cc:188-199 `Decrypt`. -/
def decrypt (c : EcCipher G) (ct : Bytes) : Res Bytes := do
  let P ← c.group.createECPoint ct
  c.group.toBytesCompressed (c.privateKeyInverse • P)

/-- ec_commutative_cipher.cc:228-230 `GetPrivateKeyBytes`. -/
def getPrivateKeyBytes (c : EcCipher G) : Res Bytes := BN.toBytes c.privateKey

end EcCipher
end PJC
