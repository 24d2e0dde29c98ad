import Verif.Model.Weierstrass
/-
Model of `ECGroup::Create`, /repo/private_join_and_compute/crypto/ec_group.cc:38-152.
-/
namespace PJC
namespace EcCreate

/-- What the library has stored for a curve id: the parameters, the order, and the
cofactor. -/
structure LibGroup where
  curve : Curve
  cofactor : BigNum
  deriving DecidableEq, Repr

/-- The members of an `ECGroup` object (ec_group.h:152-163), without the context. -/
structure GroupObj where
  order : BigNum
  cofactor : BigNum
  curve : Curve
  pMinusOneOverTwo : BigNum
  deriving DecidableEq, Repr

/-- ec_group.cc:38-48 `CreateGroup`; `lib` is `EC_GROUP_new_by_curve_name`. -/
def createGroup (lib : Int → Option LibGroup) (id : Int) : Res LibGroup :=
  match lib id with
  | some g => .ok g
  | none => .err .invalidArgument

/-- ec_group.cc:52-65 `CreateOrder` (allocations do not fail). -/
def createOrder (g : LibGroup) : Res BigNum := .ok g.curve.order

/-- ec_group.cc:68-82 `CreateCofactor`. -/
def createCofactor (g : LibGroup) : Res BigNum := .ok g.cofactor

/-- ec_group.cc:86-112 `CreateCurveParams`. -/
def createCurveParams (g : LibGroup) : Res Curve :=
  if ¬ BN.isPrime g.curve.p then .err .internal else .ok g.curve

/-- ec_group.cc:115-118 `GetPMinusOneOverTwo`. -/
def getPMinusOneOverTwo (c : Curve) : Res BigNum := BN.div (c.p - 1) 2

/-- ec_group.cc:132-152 `ECGroup::Create`. -/
def create (lib : Int → Option LibGroup) (id : Int) : Res GroupObj := do
  let g ← createGroup lib id
  let order ← createOrder g
  let cofactor ← createCofactor g
  let params ← createCurveParams g
  let half ← getPMinusOneOverTwo params
  return { order := order, cofactor := cofactor, curve := params, pMinusOneOverTwo := half }

end EcCreate
end PJC
