import Verif.Model.Ec
/-
Model of /repo/private_join_and_compute/crypto/shanks_discrete_log.{h,cc}.
-/
namespace PJC

variable {G : Type} [AddCommGroup G] [DecidableEq G]

/-- shanks_discrete_log.h, the state of a `ShanksDiscreteLog`; the `std::map` is an
association list of which `find` sees the first entry for a key (`insert` keeps the
existing one). -/
structure Shanks (G : Type) where
  group : EcGroup G
  generator : G
  maxMessageBits : Int
  precomputeBits : Int
  table : List (Bytes × Int)

namespace Shanks

/-- shanks_discrete_log.cc:36 `kMaxMessageSize`. -/
def kMaxMessageSize : Int := 40

/-- The C++ expression `1 << n` on `int`: undefined for a negative shift, for a shift
by 32 or more, and (before C++20) when the result does not fit, i.e. for 31. -/
def intShl (n : Int) : Res Int := if 0 ≤ n ∧ n ≤ 30 then .ok (2 ^ n.toNat) else .ub

/-- The C++ expression `shift <<= n` on `int64_t` starting from 1. -/
def int64Shl (n : Int) : Res Int := if 0 ≤ n ∧ n ≤ 62 then .ok (2 ^ n.toNat) else .ub

/-- shanks_discrete_log.cc:56-60, the loop of `PrecomputeTable`; `n` iterations left,
`i` the next exponent. -/
def tableLoop (E : EcGroup G) (g : G) : Nat → Int → G → List (Bytes × Int) →
    Res (List (Bytes × Int))
  | 0, _, _, table => .ok table
  | n + 1, i, point, table => do
    let point' := g + point
    let bytes ← E.toBytesCompressed point'
    tableLoop E g n (i + 1) point' (table ++ [(bytes, i)])

/-- shanks_discrete_log.cc:50-62 `PrecomputeTable`. -/
def precomputeTable (E : EcGroup G) (g : G) (precomputeBits : Int) :
    Res (List (Bytes × Int)) := do
  let bound ← intShl precomputeBits
  tableLoop E g (bound - 1).toNat 1 0 []

/-- shanks_discrete_log.cc:64-86 `Create`. -/
def create (E : EcGroup G) (g : G) (maxMessageBits precomputeBits : Int) :
    Res (Shanks G) :=
  if maxMessageBits ≤ precomputeBits then .err .invalidArgument
  else if kMaxMessageSize < maxMessageBits then .err .invalidArgument
  else do
    let table ← precomputeTable E g precomputeBits
    return { group := E, generator := g, maxMessageBits := maxMessageBits,
             precomputeBits := precomputeBits, table := table }

/-- shanks_discrete_log.cc:95-111, the loop of `GetDiscreteLog`; `n` iterations left. -/
def searchLoop (s : Shanks G) (babyStep : G) : Nat → Int → G → Res Int
  | 0, _, _ => .err .invalidArgument
  | n + 1, i, cur =>
    if cur = 0 then do
      let shift ← int64Shl s.precomputeBits
      return shift * i
    else do
      let bytes ← s.group.toBytesCompressed cur
      match s.table.find? (fun kv => kv.1 = bytes) with
      | some kv => do
        let shift ← int64Shl s.precomputeBits
        return shift * i + kv.2
      | none => searchLoop s babyStep n (i + 1) (cur + babyStep)

/-- shanks_discrete_log.cc:88-115 `GetDiscreteLog`. -/
def getDiscreteLog (s : Shanks G) (point : G) : Res Int := do
  let pre ← intShl s.precomputeBits
  let babyStep := pre • (-s.generator)
  let bound ← intShl (s.maxMessageBits - s.precomputeBits)
  searchLoop s babyStep bound.toNat 0 point

end Shanks
end PJC
