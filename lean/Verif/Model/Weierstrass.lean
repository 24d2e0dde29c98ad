import Verif.Model.Context
/-
Model of the coordinate-level part of
/repo/private_join_and_compute/crypto/ec_group.{h,cc} and ec_point.{h,cc}: hashing and
padding onto the curve y^2 = x^3 + a x + b over the integers modulo p, validity of
points, and point encodings.
-/
namespace PJC

/-- ec_group.h:117-130 `CurveParams` plus the group order and the field length in
bytes. -/
structure Curve where
  p : BigNum
  a : BigNum
  b : BigNum
  order : Nat
  fieldLen : Nat
  deriving DecidableEq, Repr

/-- An `EC_POINT`: the point at infinity or affine coordinates. -/
inductive RawPoint where
  | inf
  | aff (x y : BigNum)
  deriving DecidableEq, Repr

namespace Curve

/-- ec_group.cc:305-308 `ComputeYSquare`. -/
def computeYSquare (c : Curve) (x : BigNum) : Res BigNum :=
  BN.mod (BN.exp x 3 + c.a * x + c.b) c.p

/-- Are these the coordinates of a point (`EC_POINT_is_on_curve`, and the check in
`EC_POINT_set_affine_coordinates_GFp`): reduced modulo p and on the curve. -/
def onCurve (c : Curve) (x y : BigNum) : Bool :=
  decide (0 ≤ x) && decide (x < c.p) && decide (0 ≤ y) && decide (y < c.p) &&
    decide ((y * y - (x * x * x + c.a * x + c.b)) % c.p = 0)

/-- ec_group.cc:317-320 `IsOnCurve`. -/
def isOnCurve (c : Curve) : RawPoint → Bool
  | .inf => true
  | .aff x y => c.onCurve x y

/-- ec_group.cc:322-324 `IsAtInfinity`. -/
def isAtInfinity : RawPoint → Bool
  | .inf => true
  | .aff _ _ => false

/-- ec_group.cc:310-315 `IsValid`. -/
def isValid (c : Curve) (P : RawPoint) : Bool :=
  if !c.isOnCurve P || isAtInfinity P then false else true

/-- ec_group.cc:326-328 `IsSquare`; `p_minus_one_over_two_` is computed at
ec_group.cc:115-118 with the exact division. -/
def isSquare (c : Curve) (q : BigNum) : Res Bool := do
  let half ← BN.div (c.p - 1) 2
  let r ← BN.modExp q half c.p
  return BN.isOne r

/-- ec_point.cc:36-42, the constructor from coordinates: the CRYPTO_CHECK aborts when
BoringSSL rejects them (unreduced or not on the curve). -/
def pointOfCoordinates (c : Curve) (x y : BigNum) : Res RawPoint :=
  if c.onCurve x y then .ok (.aff x y) else .crash

/-- ec_group.cc:348-356 `CreateECPoint(x, y)`. -/
def createECPointXY (c : Curve) (x y : BigNum) : Res RawPoint := do
  let P ← c.pointOfCoordinates x y
  if !c.isValid P then .err .invalidArgument else .ok P

/-- ec_group.cc:358-379 `CreateECPoint(bytes)`, for a decoder `oct2point`
(`EC_POINT_oct2point`). -/
def createECPoint (c : Curve) (oct2point : Bytes → Option RawPoint) (bs : Bytes) :
    Res RawPoint :=
  match oct2point bs with
  | none => .err .invalidArgument
  | some P => if !c.isValid P then .err .invalidArgument else .ok P

/-- ec_group.cc:167-179 `GetPointByHashingToCurveInternal`; `sqrt a m` is
`BigNum::ModSqrt` (big_num.cc:261-266). -/
def hashInternal (c : Curve) (sqrt : BigNum → BigNum → Res BigNum) (x : BigNum) :
    Res RawPoint := do
  let modX ← BN.mod x c.p
  let y2 ← c.computeYSquare modX
  let sq ← c.isSquare y2
  if sq then do
    let s ← sqrt y2 c.p
    if BN.isBitSet s 0 then do
      let n ← BN.modNegate s c.p
      c.createECPointXY modX n
    else c.createECPointXY modX s
  else .err .internal

/-- ec_group.cc:184-190 (and 196-202, 208-214), the `while (true)` loop of
`GetPointByHashingToCurveSha256/384/512`.  The C++ loop has no bound: `none` means it
has not returned after `fuel` rounds. -/
def hashLoop (c : Curve) (sqrt : BigNum → BigNum → Res BigNum) (oracle : Bytes → Res BigNum) :
    Nat → BigNum → Option (Res RawPoint)
  | 0, _ => none
  | fuel + 1, x =>
    match c.hashInternal sqrt x with
    | .ok P => some (.ok P)
    | .crash => some .crash
    | .ub => some .ub
    | .err _ =>
      match (BN.toBytes x >>= oracle) with
      | .ok x' => hashLoop c sqrt oracle fuel x'
      | .err e => some (.err e)
      | .crash => some .crash
      | .ub => some .ub

/-- ec_group.cc:181-215 `GetPointByHashingToCurveSha256/384/512`, for the oracle
`RandomOracleSha256/384/512(·, p)`. -/
def hashToCurve (c : Curve) (sqrt : BigNum → BigNum → Res BigNum) (oracle : Bytes → Res BigNum)
    (fuel : Nat) (m : Bytes) : Option (Res RawPoint) :=
  match oracle m with
  | .ok x => c.hashLoop sqrt oracle fuel x
  | .err e => some (.err e)
  | .crash => some .crash
  | .ub => some .ub

/-- ec_group.cc:181-191 `GetPointByHashingToCurveSha256`. -/
def hashSha256 (c : Curve) (H : Hashes) (sqrt : BigNum → BigNum → Res BigNum) (fuel : Nat)
    (m : Bytes) : Option (Res RawPoint) :=
  c.hashToCurve sqrt (fun s => Ctx.randomOracleSha256 H s c.p) fuel m
/-- ec_group.cc:193-203 `GetPointByHashingToCurveSha384`. -/
def hashSha384 (c : Curve) (H : Hashes) (sqrt : BigNum → BigNum → Res BigNum) (fuel : Nat)
    (m : Bytes) : Option (Res RawPoint) :=
  c.hashToCurve sqrt (fun s => Ctx.randomOracleSha384 H s c.p) fuel m
/-- ec_group.cc:205-215 `GetPointByHashingToCurveSha512`. -/
def hashSha512 (c : Curve) (H : Hashes) (sqrt : BigNum → BigNum → Res BigNum) (fuel : Nat)
    (m : Bytes) : Option (Res RawPoint) :=
  c.hashToCurve sqrt (fun s => Ctx.randomOracleSha512 H s c.p) fuel m

/-- ec_group.cc:277 `CreateBigNum(pow(2, k) - 1)`: the `double` value converted to
`uint64_t`.  It is exact up to k = 53, rounds to `2^k` for 54 to 63, and from 64 on the
conversion is out of range (undefined behaviour). -/
def padMask (k : Nat) : Res BigNum :=
  if k ≤ 53 then .ok (2 ^ k - 1) else if k ≤ 63 then .ok (2 ^ k) else .ub

/-- ec_group.cc:282 `i < pow(2, k)`: the first `i` for which this is false.  `i` is
converted to `double`, which rounds up to `2^k` from `2^k - 2^(k-54)` on. -/
def padLimit (k : Nat) : Nat := if k ≤ 53 then 2 ^ k else 2 ^ k - 2 ^ (k - 54)

/-- ec_group.cc:282-289, the loop of `GetPointByPaddingX`; `n` iterations left. -/
def padLoop (c : Curve) (sqrt : BigNum → BigNum → Res BigNum) (xPadded : BigNum) :
    Nat → Nat → Res RawPoint
  | 0, _ => .err .notFound
  | n + 1, i =>
    match c.hashInternal sqrt (xPadded + i) with
    | .ok P => .ok P
    | .err _ => padLoop c sqrt xPadded n (i + 1)
    | .crash => .crash
    | .ub => .ub

/-- ec_group.cc:273-290 `GetPointByPaddingX`. -/
def getPointByPaddingX (c : Curve) (sqrt : BigNum → BigNum → Res BigNum) (m : BigNum) (k : Nat) :
    Res RawPoint := do
  let xPadded ← BN.lshift m k
  let mask ← padMask k
  if xPadded + mask > c.p then .err .invalidArgument
  else c.padLoop sqrt xPadded (padLimit k - 1) 1

/-- ec_group.cc:292-303 `RecoverXFromPaddedPoint`; the point at infinity has no affine
coordinates (ec_point.cc:74-89). -/
def recoverXFromPaddedPoint (P : RawPoint) (k : Nat) : Res BigNum :=
  match P with
  | .inf => .err .invalidArgument
  | .aff x _ => BN.rshift x k

/-- Big-endian bytes of fixed length (`BN_bn2bin_padded`). -/
def padTo (n : Nat) (bs : Bytes) : Bytes := List.replicate (n - bs.length) 0 ++ bs

/-- `EC_POINT_point2oct` with `POINT_CONVERSION_COMPRESSED` (called at
ec_point.cc:49-59): BoringSSL fails on the point at infinity, otherwise writes 2 or 3
(parity of y) and x. -/
def point2oct (c : Curve) : RawPoint → Option Bytes
  | .inf => none
  | .aff x y =>
    some (Fin.ofNat 256 (2 + y.toNat % 2) :: padTo c.fieldLen (BN.natToBytes x.toNat))

/-- `EC_POINT_point2oct` with `POINT_CONVERSION_UNCOMPRESSED` (ec_point.cc:61-72). -/
def point2octUncompressed (c : Curve) : RawPoint → Option Bytes
  | .inf => none
  | .aff x y =>
    some (4 :: (padTo c.fieldLen (BN.natToBytes x.toNat) ++
      padTo c.fieldLen (BN.natToBytes y.toNat)))

/-- The y-coordinate with the given parity for a given x, if there is one
(`EC_POINT_set_compressed_coordinates_GFp`, specified by search). -/
def decompress (c : Curve) (x : BigNum) (parity : Nat) : Option BigNum :=
  ((List.range c.p.toNat).find? fun y : Nat => decide (y % 2 = parity) && c.onCurve x y).map
    fun y : Nat => (y : Int)

/-- `EC_POINT_oct2point` (called at ec_group.cc:365-368), as BoringSSL does it:
compressed (2, 3) and uncompressed (4) encodings of the exact length, reduced
coordinates, on the curve; nothing else. -/
def oct2point (c : Curve) (bs : Bytes) : Option RawPoint :=
  match bs with
  | [] => none
  | t :: rest =>
    if t = 4 then
      if rest.length = 2 * c.fieldLen then
        let x := BN.ofBytes (rest.take c.fieldLen)
        let y := BN.ofBytes (rest.drop c.fieldLen)
        if c.onCurve x y then some (.aff x y) else none
      else none
    else if t = 2 ∨ t = 3 then
      if rest.length = c.fieldLen then
        (c.decompress (BN.ofBytes rest) (t.val - 2)).map fun y => .aff (BN.ofBytes rest) y
      else none
    else none

end Curve
end PJC
