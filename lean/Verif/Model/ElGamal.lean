import Verif.Model.Ec
/-
Model of /repo/private_join_and_compute/crypto/elgamal.{h,cc} and
commutative_elgamal.{h,cc}.  OpenSSL's point operations are modelled as total (their
allocation failures are not modelled), so the checks of their statuses disappear.
-/
namespace PJC

variable {G : Type} [AddCommGroup G] [DecidableEq G]

namespace ElGamal

/-- elgamal.h:41-45 `Ciphertext`. -/
structure Ct (G : Type) where
  u : G
  e : G

/-- elgamal.h:47-50 `PublicKey`. -/
structure PublicKey (G : Type) where
  g : G
  y : G

/-- elgamal.h:52-54 `PrivateKey`. -/
structure PrivateKey where
  x : BigNum

/-- elgamal.cc:34-53 `GenerateKeyPair`, from a random word. -/
def generateKeyPair (E : EcGroup G) (w : Nat) : Res (PublicKey G × PrivateKey) := do
  let x ← E.generatePrivateKey w
  return ({ g := E.gen, y := x • E.gen }, { x := x })

/-- elgamal.cc:69-76, the loop of `GeneratePublicKeyFromShares`: the CHECK compares
the generators. -/
def sharesLoop (g : G) : List (PublicKey G) → G → Res G
  | [], y => .ok y
  | s :: rest, y => if g = s.g then sharesLoop g rest (y + s.y) else .crash

/-- elgamal.cc:55-79 `GeneratePublicKeyFromShares`. -/
def publicKeyFromShares : List (PublicKey G) → Res (PublicKey G)
  | [] => .err .invalidArgument
  | s :: rest => do
    let y ← sharesLoop s.g rest s.y
    return { g := s.g, y := y }

/-- elgamal.cc:81-93 `Mul`. -/
def mul (c1 c2 : Ct G) : Res (Ct G) := .ok { u := c1.u + c2.u, e := c1.e + c2.e }

/-- elgamal.cc:95-106 `Exp`. -/
def exp (c : Ct G) (k : BigNum) : Res (Ct G) := .ok { u := k • c.u, e := k • c.e }

/-- elgamal.cc:108-118 `GetZero`. -/
def getZero : Res (Ct G) := .ok { u := 0, e := 0 }

/-- elgamal.cc:120-130 `CloneCiphertext`. -/
def clone (c : Ct G) : Res (Ct G) := .ok { u := c.u, e := c.e }

/-- elgamal.cc:132-134 `IsCiphertextZero`. -/
def isCiphertextZero (c : Ct G) : Bool := decide (c.u = 0) && decide (c.e = 0)

/-- elgamal.cc:148-165 `ElGamalEncrypter::Encrypt`; `w` is the random word from which
`GeneratePrivateKey` makes the exponent. -/
def encrypt (E : EcGroup G) (pk : PublicKey G) (m : G) (w : Nat) : Res (Ct G) := do
  let r ← E.generatePrivateKey w
  return { u := r • pk.g, e := m + r • pk.y }

/-- elgamal.cc:167-188 `ElGamalEncrypter::ReRandomize`. -/
def reRandomize (E : EcGroup G) (pk : PublicKey G) (c : Ct G) (w : Nat) : Res (Ct G) := do
  let r ← E.generatePrivateKey w
  return { u := c.u + r • pk.g, e := c.e + r • pk.y }

/-- elgamal.cc:198-213 `ElGamalDecrypter::Decrypt`. -/
def decrypt (sk : PrivateKey) (c : Ct G) : Res G := .ok (c.e + -(sk.x • c.u))

/-- elgamal.cc:215-226 `ElGamalDecrypter::PartialDecrypt`. -/
def partialDecrypt (sk : PrivateKey) (c : Ct G) : Res (Ct G) := do
  let e ← decrypt sk c
  return { u := c.u, e := e }

end ElGamal

/-- commutative_elgamal.h, the state of a `CommutativeElGamal` object: group, public
key, and the private key unless the object is public-only (`decrypter_ == nullptr`). -/
structure CommElGamal (G : Type) where
  group : EcGroup G
  pub : ElGamal.PublicKey G
  priv : Option ElGamal.PrivateKey

namespace CommElGamal

/-- commutative_elgamal.cc:48-57 `CreateWithNewKeyPair`. -/
def createWithNewKeyPair (curve : Res (EcGroup G)) (w : Nat) : Res (CommElGamal G) := do
  let E ← curve
  let kp ← ElGamal.generateKeyPair E w
  return { group := E, pub := kp.1, priv := some kp.2 }

/-- commutative_elgamal.cc:59-73 `CreateFromPublicKey`. -/
def createFromPublicKey (curve : Res (EcGroup G)) (pk : Bytes × Bytes) :
    Res (CommElGamal G) := do
  let E ← curve
  let g ← E.createECPoint pk.1
  let y ← E.createECPoint pk.2
  return { group := E, pub := { g := g, y := y }, priv := none }

/-- commutative_elgamal.cc:75-103 `CreateFromPublicAndPrivateKeys`. -/
def createFromPublicAndPrivateKeys (curve : Res (EcGroup G)) (pk : Bytes × Bytes)
    (sk : Bytes) : Res (CommElGamal G) := do
  let E ← curve
  let g ← E.createECPoint pk.1
  let y ← E.createECPoint pk.2
  let x := BN.ofBytes sk
  if y ≠ x • g then .err .invalidArgument
  else return { group := E, pub := { g := g, y := y }, priv := some { x := x } }

/-- commutative_elgamal.cc:113-117 (and 127-129), serializing a ciphertext. -/
def ctToBytes (E : EcGroup G) (c : ElGamal.Ct G) : Res (Bytes × Bytes) := do
  let u ← E.toBytesCompressed c.u
  let e ← E.toBytesCompressed c.e
  return (u, e)

/-- commutative_elgamal.cc:105-118 `Encrypt`. -/
def encrypt (o : CommElGamal G) (plaintext : Bytes) (w : Nat) : Res (Bytes × Bytes) := do
  let m ← o.group.createECPoint plaintext
  let c ← ElGamal.encrypt o.group o.pub m w
  ctToBytes o.group c

/-- commutative_elgamal.cc:120-130 `EncryptIdentityElement`. -/
def encryptIdentity (o : CommElGamal G) (w : Nat) : Res (Bytes × Bytes) := do
  let c ← ElGamal.encrypt o.group o.pub 0 w
  ctToBytes o.group c

/-- commutative_elgamal.cc:132-153 `Decrypt`. -/
def decrypt (o : CommElGamal G) (ct : Bytes × Bytes) : Res Bytes :=
  match o.priv with
  | none => .err .invalidArgument
  | some sk => do
    let u ← o.group.createECPoint ct.1
    let e ← o.group.createECPoint ct.2
    let m ← ElGamal.decrypt sk { u := u, e := e }
    o.group.toBytesCompressed m

/-- commutative_elgamal.cc:154-161 `GetPublicKeyBytes`. -/
def getPublicKeyBytes (o : CommElGamal G) : Res (Bytes × Bytes) := do
  let g ← o.group.toBytesCompressed o.pub.g
  let y ← o.group.toBytesCompressed o.pub.y
  return (g, y)

/-- commutative_elgamal.cc:163-169 `GetPrivateKeyBytes`. -/
def getPrivateKeyBytes (o : CommElGamal G) : Res Bytes :=
  match o.priv with
  | none => .err .invalidArgument
  | some sk => BN.toBytes sk.x

end CommElGamal
end PJC
