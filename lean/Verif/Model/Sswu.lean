import Verif.Model.Weierstrass
/-
Model of /repo/private_join_and_compute/crypto/ec_group.cc:217-270, the choice between BoringSSL's
SSWU hashes to the curve, and a description of these BoringSSL functions after RFC 9380, which they
implement (suites P256_XMD:SHA-256_SSWU and P384_XMD:SHA-384_SSWU).
-/
namespace PJC.Sswu

/-! ### The code of ec_group.cc -/

/-- The four functions of BoringSSL that ec_group.cc calls, from the domain separation tag and the
message; `none` is a failure. -/
structure Lib where
  /-- `EC_hash_to_curve_p256_xmd_sha256_sswu` -/
  hashP256 : (dst m : Bytes) → Option RawPoint
  /-- `EC_hash_to_curve_p384_xmd_sha384_sswu` -/
  hashP384 : (dst m : Bytes) → Option RawPoint
  /-- `EC_encode_to_curve_p256_xmd_sha256_sswu` -/
  encodeP256 : (dst m : Bytes) → Option RawPoint
  /-- `EC_encode_to_curve_p384_xmd_sha384_sswu` -/
  encodeP384 : (dst m : Bytes) → Option RawPoint

/-- ec_group.cc:381-393 `GetPointAtInfinity` (allocation failures are not modelled). -/
def getPointAtInfinity : Res RawPoint := .ok .inf

/-- ec_group.cc:225-231 (and the three other calls): the status of the library decides. -/
def called : Option RawPoint → Res RawPoint
  | some P => .ok P
  | none => .err .internal

/-- ec_group.cc:217-243 `GetPointByHashingToCurveSswuRo`; `id` is `GetCurveId()`, 415 is
NID_X9_62_prime256v1 and 715 is NID_secp384r1. -/
def getPointRo (lib : Lib) (id : Int) (m dst : Bytes) : Res RawPoint := do
  let _ ← getPointAtInfinity
  if id = 415 then called (lib.hashP256 dst m)
  else if id = 715 then called (lib.hashP384 dst m)
  else .err .invalidArgument

/-- ec_group.cc:245-270 `GetPointByHashingToCurveSswuNu`. -/
def getPointNu (lib : Lib) (id : Int) (m dst : Bytes) : Res RawPoint := do
  let _ ← getPointAtInfinity
  if id = 415 then called (lib.encodeP256 dst m)
  else if id = 715 then called (lib.encodeP384 dst m)
  else .err .invalidArgument

/-! ### RFC 9380 -/

/-- The parameters of a suite (RFC 9380, section 8): field, curve, the constant Z, the hash with the
lengths of its output and of its block, and the bytes taken per field element. -/
structure Suite where
  p : Nat
  a : Int
  b : Int
  z : Int
  hash : Hashes → Bytes → Bytes
  digestLen : Nat
  blockLen : Nat
  len : Nat

/-- RFC 9380, 5.3.3, the blocks `b_2, b_3, ...`: `n` are still to come, the next has number `i`. -/
def blocks (hash : Bytes → Bytes) (dstPrime b0 : Bytes) : Nat → Nat → Bytes → Bytes
  | 0, _, _ => []
  | n + 1, i, prev =>
    let next := hash (List.zipWith (fun x y : Byte => Fin.ofNat 256 (x.val ^^^ y.val)) b0 prev ++
      [Fin.ofNat 256 i] ++ dstPrime)
    next ++ blocks hash dstPrime b0 n (i + 1) next

/-- RFC 9380, 5.3.3 `expand_message_xmd` (with 5.3.3's treatment of long tags). -/
def expandMessage (hash : Bytes → Bytes) (digestLen blockLen : Nat) (m dst : Bytes) (len : Nat) :
    Bytes :=
  let ell := (len + digestLen - 1) / digestLen
  let dst' := if 256 ≤ dst.length then hash (str "H2C-OVERSIZE-DST-" ++ dst) else dst
  let dstPrime := dst' ++ [Fin.ofNat 256 dst'.length]
  let b0 := hash (List.replicate blockLen 0 ++ m ++
    [Fin.ofNat 256 (len / 256), Fin.ofNat 256 len] ++ [0] ++ dstPrime)
  let b1 := hash (b0 ++ [1] ++ dstPrime)
  (b1 ++ blocks hash dstPrime b0 (ell - 1) 2 b1).take len

/-- RFC 9380, 5.2 `hash_to_field`: element `i` of `count`. -/
def hashToField (S : Suite) (H : Hashes) (m dst : Bytes) (count i : Nat) : Nat :=
  let bytes := expandMessage (S.hash H) S.digestLen S.blockLen m dst (count * S.len)
  (BN.ofBytes ((bytes.drop (i * S.len)).take S.len)).toNat % S.p

/-- Square and multiply. -/
def powm (p : Nat) : Nat → Nat → Nat → Nat
  | 0, _, _ => 1 % p
  | fuel + 1, a, e =>
    if e = 0 then 1 % p
    else
      let r := powm p fuel (a * a % p) (e / 2)
      if e % 2 = 1 then a * r % p else r

/-- A power modulo `p`; every exponent used is below `2^(8 len)`. -/
def Suite.pow (S : Suite) (x : Int) (e : Nat) : Int :=
  (powm S.p (8 * S.len) (x % S.p).toNat e : Nat)

/-- RFC 9380, 4 `inv0`: the inverse, and 0 for 0. -/
def Suite.inv0 (S : Suite) (x : Int) : Int := S.pow x (S.p - 2)

/-- RFC 9380, 4 `is_square`. -/
def Suite.isSq (S : Suite) (x : Int) : Bool :=
  decide (S.pow x ((S.p - 1) / 2) = 0) || decide (S.pow x ((S.p - 1) / 2) = 1)

/-- RFC 9380, 4 `sqrt` for p = 3 mod 4. -/
def Suite.sqrt (S : Suite) (x : Int) : Int := S.pow x ((S.p + 1) / 4)

/-- The right-hand side of the curve equation. -/
def Suite.g (S : Suite) (x : Int) : Int := (x ^ 3 + S.a * x + S.b) % S.p

/-- RFC 9380, 6.6.2 `map_to_curve_simple_swu`, the x-coordinate: the first candidate. -/
def Suite.x1 (S : Suite) (u : Nat) : Int :=
  let t := S.z * u ^ 2 % S.p
  let tv1 := S.inv0 (t ^ 2 + t)
  if tv1 = 0 then S.b * S.inv0 (S.z * S.a) % S.p
  else (-S.b) * S.inv0 S.a * (1 + tv1) % S.p

/-- RFC 9380, 6.6.2, the second candidate. -/
def Suite.x2 (S : Suite) (u : Nat) : Int := S.z * u ^ 2 % S.p * S.x1 u % S.p

/-- RFC 9380, 6.6.2 `map_to_curve_simple_swu`. -/
def mapToCurve (S : Suite) (u : Nat) : Int × Int :=
  let xy := if S.isSq (S.g (S.x1 u)) then (S.x1 u, S.sqrt (S.g (S.x1 u)))
    else (S.x2 u, S.sqrt (S.g (S.x2 u)))
  (xy.1, if (u : Int) % 2 = xy.2 % 2 then xy.2 else (-xy.2) % S.p)

/-- RFC 9380, 3 `encode_to_curve` (cofactor one). -/
def encodeToCurve (S : Suite) (H : Hashes) (dst m : Bytes) : RawPoint :=
  let Q := mapToCurve S (hashToField S H m dst 1 0)
  .aff Q.1 Q.2

/-- RFC 9380, 3 `hash_to_curve`: the two points that are added. -/
def hashSummands (S : Suite) (H : Hashes) (dst m : Bytes) : RawPoint × RawPoint :=
  let Q0 := mapToCurve S (hashToField S H m dst 2 0)
  let Q1 := mapToCurve S (hashToField S H m dst 2 1)
  (.aff Q0.1 Q0.2, .aff Q1.1 Q1.2)

end PJC.Sswu
