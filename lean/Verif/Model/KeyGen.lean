import Verif.Model.CamenischShoup
/-
Key generation from safe primes and key objects made from protos:
/repo/private_join_and_compute/crypto/paillier.cc:196-220, 374-382, 451-455 and
/repo/private_join_and_compute/crypto/camenisch_shoup.cc:239-253, 318-328, 360-366, 442-454.

`Context::GenerateSafePrime` (context.cc) is a call into the cryptographic library: `gen i` is the
result of the `i`-th call (a prime, or an abort for a length below 3 bits), and what the library
promises about it is a hypothesis of the theorems (`SafePrimes` in Props/KeyGen.lean).
-/
namespace PJC

/-- The loop `while (p == q) q = GenerateSafePrime(..)` (paillier.cc:205-207 and
camenisch_shoup.cc:244-246) together with the draw before it; `fuel` bounds the number of draws and
`none` is a run that is still drawing. -/
def drawOther (gen : Nat → Res BigNum) (p : BigNum) : Nat → Nat → Option (Res BigNum)
  | 0, _ => none
  | fuel + 1, i =>
    match gen i with
    | .ok q => if p = q then drawOther gen p fuel (i + 1) else some (.ok q)
    | .err c => some (.err c)
    | .crash => some .crash
    | .ub => some .ub

/-- paillier.proto `PaillierPublicKey`; `s` is an `int32`. -/
structure PaillierPublicKeyProto where
  n : Bytes
  s : Int
  deriving DecidableEq, Repr

/-- paillier.proto `PaillierPrivateKey`. -/
structure PaillierPrivateKeyProto where
  p : Bytes
  q : Bytes
  s : Int
  deriving DecidableEq, Repr

/-- paillier.cc:209-219: the protos for the two primes. -/
def paillierProtos (p q : BigNum) (s : Int) :
    Res (PaillierPublicKeyProto × PaillierPrivateKeyProto) := do
  let n := p * q
  let pb ← BN.toBytes p
  let qb ← BN.toBytes q
  let nb ← BN.toBytes n
  return (⟨nb, s⟩, ⟨pb, qb, s⟩)

/-- paillier.cc:196-220 `GeneratePaillierKeyPair`.  `gen bits i` is the `i`-th call of
`GenerateSafePrime(bits)`.  `modulus_length / 2` truncates towards zero. -/
def generatePaillierKeyPair (gen : Int → Nat → Res BigNum) (fuel : Nat) (modulusLength s : Int) :
    Option (Res (PaillierPublicKeyProto × PaillierPrivateKeyProto)) :=
  let bits := modulusLength.tdiv 2
  if bits ≤ 0 ∨ s ≤ 0 then some (.err .invalidArgument)
  else
    match gen bits 0 with
    | .ok p => (drawOther (gen bits) p fuel 1).map fun r => r.bind fun q => paillierProtos p q s
    | .err c => some (.err c)
    | .crash => some .crash
    | .ub => some .ub

/-- paillier.cc:379-382 `PublicPaillier(ctx, proto)`.  `GetPowers` leaves no entry at index `s`
when `s` is negative: the access at 370 is then out of bounds. -/
def PublicPaillier.ofProto (cfg : ExpCfg) (x : BigNum) (k : PaillierPublicKeyProto) :
    Res PublicPaillier :=
  if k.s < 0 then .ub else PublicPaillier.new cfg x (BN.ofBytes k.n) k.s.toNat

/-- paillier.cc:374-375 `PublicPaillier(ctx, n)`; `kDefaultS` is 1 (paillier.cc:360). -/
def PublicPaillier.ofModulus (cfg : ExpCfg) (x n : BigNum) : Res PublicPaillier :=
  PublicPaillier.new cfg x n 1

/-- paillier.cc:451-455 `PrivatePaillier(ctx, proto)`; a negative `s` as for the public key. -/
def PrivatePaillier.ofProto (cfg : ExpCfg) (k : PaillierPrivateKeyProto) : Res PrivatePaillier :=
  if k.s < 0 then .ub else PrivatePaillier.new cfg (BN.ofBytes k.p) (BN.ofBytes k.q) k.s.toNat

/-- paillier.cc:470-472 `PrivatePaillier(ctx, p, q)`. -/
def PrivatePaillier.ofPrimes (cfg : ExpCfg) (p q : BigNum) : Res PrivatePaillier :=
  PrivatePaillier.new cfg p q 1

namespace Cs

/-- camenisch_shoup.h `CamenischShoupKey`: the key material with the factors of `n`. -/
structure Key where
  pub : CsPublicKey
  priv : CsPrivateKey
  p : BigNum
  q : BigNum
  deriving DecidableEq

/-- camenisch_shoup.cc:239-253 `GenerateCamenischShoupKey`; `x` is the draw for the generator and
`xs` the draws for the secret exponents, which may depend on the modulus. -/
def generateKey (gen : Int → Nat → Res BigNum) (fuel : Nat) (nLengthBits : Int) (s : Nat)
    (x : BigNum → BigNum) (xs : BigNum → List BigNum) : Option (Res Key) :=
  let bits := nLengthBits.tdiv 2
  match gen bits 0 with
  | .ok p => (drawOther (gen bits) p fuel 1).map fun r => r.bind fun q => do
      let n := p * q
      let k ← generateKeyPair n s (x n) (xs n)
      return ⟨k.1, k.2, p, q⟩
  | .err c => some (.err c)
  | .crash => some .crash
  | .ub => some .ub

/-- camenisch_shoup.cc:318-323 `CamenischShoupPrivateKeyToProto`. -/
def privateKeyToProto (sk : CsPrivateKey) : Res (List Bytes) := bigNumVectorToProto sk.xs

/-- camenisch_shoup.cc:325-329 `ParseCamenischShoupPrivateKeyProto`. -/
def parsePrivateKeyProto (p : List Bytes) : Res CsPrivateKey := .ok ⟨parseBigNumVectorProto p⟩

/-- camenisch_shoup.cc:360-366 `PublicCamenischShoup::FromProto`. -/
def publicFromProto (cfg : ExpCfg) (p : CsPublicKeyProto) : Res CsPublic := do
  let pk ← parsePublicKeyProto p
  newPublic cfg pk.n pk.s pk.g pk.ys

/-- camenisch_shoup.cc:442-454 `PrivateCamenischShoup::FromProto`. -/
def privateFromProto (cfg : ExpCfg) (p : CsPublicKeyProto) (sp : List Bytes) : Res CsPrivate := do
  let pk ← parsePublicKeyProto p
  let sk ← parsePrivateKeyProto sp
  newPrivate cfg pk.n pk.s pk.g pk.ys sk.xs

end Cs
end PJC
