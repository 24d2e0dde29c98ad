import Mathlib.Algebra.Group.Basic
import Verif.Model.Context
/-
Model of the point interface, /repo/private_join_and_compute/crypto/ec_point.{h,cc}
and the curve-independent part of ec_group.{h,cc}.

The points of the curve are an additive commutative group `G`; OpenSSL's
`EC_POINT_add`, `EC_POINT_mul`, `EC_POINT_invert`, `EC_POINT_cmp` are modelled by the
group operations.  Point encoding and hashing to the curve are fields of `EcGroup`;
`Model/Weierstrass.lean` models them for an actual Weierstrass curve and
`Lemmas/Weierstrass.lean` shows that such a curve is an instance.
-/
namespace PJC

/-- ec_group.h:35-190, an `ECGroup` object, as far as its users see it. -/
structure EcGroup (G : Type) where
  /-- `GetOrder()`, ec_group.h:119. -/
  order : Nat
  /-- `GetFixedGenerator()`, ec_group.cc:330-338. -/
  gen : G
  /-- `EC_POINT_point2oct(.., POINT_CONVERSION_COMPRESSED, ..)`, `none` = failure. -/
  point2oct : G → Option Bytes
  /-- `EC_POINT_oct2point` (called at ec_group.cc:365-368), `none` = failure. -/
  oct2point : Bytes → Option G
  /-- `GetPointByHashingToCurveSha256`, ec_group.cc:181-191. -/
  hashSha256 : Bytes → Res G
  /-- `GetPointByHashingToCurveSha384`, ec_group.cc:193-203. -/
  hashSha384 : Bytes → Res G
  /-- `GetPointByHashingToCurveSha512`, ec_group.cc:205-215. -/
  hashSha512 : Bytes → Res G
  /-- `GetPointByHashingToCurveSswuRo(m, dst)`, ec_group.cc:217-243. -/
  hashSswuRo : Bytes → Bytes → Res G

variable {G : Type} [AddCommGroup G] [DecidableEq G]

namespace EcGroup

/-- ec_point.cc:49-59 `ToBytesCompressed`. -/
def toBytesCompressed (E : EcGroup G) (P : G) : Res Bytes :=
  match E.point2oct P with
  | some bs => .ok bs
  | none => .err .internal

/-- ec_group.cc:358-379 `CreateECPoint(bytes)`: decode, then refuse the point at
infinity (`IsValid`, ec_group.cc:310-315; every element of `G` is on the curve). -/
def createECPoint (E : EcGroup G) (bs : Bytes) : Res G :=
  match E.oct2point bs with
  | none => .err .invalidArgument
  | some P => if P = 0 then .err .invalidArgument else .ok P

/-- ec_group.cc:155-157 `GeneratePrivateKey`, from a random word. -/
def generatePrivateKey (E : EcGroup G) (w : Nat) : Res BigNum := Ctx.randBetween w 1 E.order

/-- ec_group.cc:159-165 `CheckPrivateKey`. -/
def checkPrivateKey (E : EcGroup G) (k : BigNum) : Res Unit :=
  if 0 ≥ k ∨ k ≥ E.order then .err .invalidArgument else .ok ()

/-- ec_group.cc:340-346 `GetRandomGenerator`, from a random word. -/
def getRandomGenerator (E : EcGroup G) (w : Nat) : Res G := do
  let r ← Ctx.randBetween w 1 E.order
  return r • E.gen

end EcGroup
end PJC
