import Verif.Model.BigNum
/-
Montgomery numbers, fixed-base and simultaneous exponentiation, two-modulus CRT.
Sources: /repo/private_join_and_compute/crypto/
  mont_mul.cc, fixed_base_exp.cc, simultaneous_fixed_bases_exp.cc,
  two_modulus_crt.cc
-/
namespace PJC

/-! ### Montgomery form (mont_mul.cc) -/

/-- mont_mul.cc:112-117 `MontContext`: the modulus and OpenSSL's radix `R`
(a power of two; `rInv` is `R⁻¹ mod m`, which OpenSSL's reduction multiplies by). -/
structure MontCtx where
  modulus : BigNum
  radix : BigNum
  rInv : BigNum
  deriving DecidableEq

namespace Mont

/-- mont_mul.cc:112-117 constructor.  `BN_MONT_CTX_set` fails (so the process
aborts) for a modulus that is not odd and positive.  The number of bits of the
radix is OpenSSL's choice (word size times word count); it is a parameter here. -/
def newCtx (radixBits : Nat) (m : BigNum) : Res MontCtx :=
  if m ≤ 0 ∨ m % 2 = 0 then .crash
  else .ok ⟨m, 2 ^ radixBits, BN.inv (2 ^ radixBits) m⟩

/-- mont_mul.cc:99-106 `CreateMontBigNum`: CHECKs `big_num < modulus`;
`BN_to_montgomery` multiplies by the radix; it fails for a negative number, and then the process
ends too. -/
def create (c : MontCtx) (a : BigNum) : Res BigNum :=
  if 0 ≤ a ∧ a < c.modulus then .ok (a * c.radix % c.modulus) else .crash

/-- mont_mul.cc:59-71 `Mul`/`MulInPlace` (same context): `a·b·R⁻¹ mod m`. -/
def mul (c : MontCtx) (a b : BigNum) : BigNum := a * b * c.rInv % c.modulus

/-- mont_mul.cc:86-93 `ToBigNum` (`BN_from_montgomery`). -/
def toBigNum (c : MontCtx) (a : BigNum) : BigNum := a * c.rInv % c.modulus

/-- mont_mul.cc:73-76 `operator==` on two numbers of the same context. -/
def eq (a b : BigNum) : Bool := a = b

/-- mont_mul.cc:79-84 `ToBytes`: the bytes of the Montgomery form itself. -/
def toBytes (a : BigNum) : Bytes := BN.natToBytes a.natAbs

/-- mont_mul.cc:50-57, 108-110 `CreateMontBigNum(bytes)`: no conversion, no range check. -/
def createFromBytes (bs : Bytes) : BigNum := BN.ofBytes bs

end Mont

/-! ### Fixed base exponentiation (fixed_base_exp.cc) -/

/-- fixed_base_exp.cc:47-128: the two implementations. -/
inductive FixedBaseExp where
  /-- fixed_base_exp.cc:71-79 `SimpleBaseExpImpl`. -/
  | simple (base modulus : BigNum)
  /-- fixed_base_exp.cc:86-128 `TwoKAryFixedBaseExpImpl`: context and table. -/
  | twoKAry (ctx : MontCtx) (cache : List BigNum)

namespace FixedBaseExp

/-- fixed_base_exp.cc:97-100: the loop pushing `cache_.back() * g`. -/
def cacheLoop (c : MontCtx) (g : BigNum) : Nat → List BigNum → List BigNum
  | 0, cache => cache
  | n + 1, cache => cacheLoop c g n (cache ++ [Mont.mul c (cache.getLastD 0) g])

/-- fixed_base_exp.cc:145-154 `GetFixedBaseExp`; `flag` is `--two_k_ary_exp`
(fixed_base_exp.cc:40), and lines 88-101 build the table. -/
def get (flag : Bool) (radixBits : Nat) (base modulus : BigNum) : Res FixedBaseExp :=
  if flag then do
    let c ← Mont.newCtx radixBits modulus
    let one ← Mont.create c 1
    let g ← Mont.create c base
    return .twoKAry c (cacheLoop c g 256 [one, g])
  else .ok (.simple base modulus)

/-- fixed_base_exp.cc:116-118: eight squarings. -/
def square8 (c : MontCtx) (z : BigNum) : BigNum :=
  (List.range 8).foldl (fun z _ => Mont.mul c z z) z

/-- fixed_base_exp.cc:112-122 `TwoKAryFixedBaseExpImpl::ModExp` over the exponent's bytes. -/
def twoKAryLoop (c : MontCtx) (cache : List BigNum) (bytes : Bytes) (z : BigNum) : BigNum :=
  bytes.foldl (fun z b => Mont.mul c (square8 c z) (cache.getD b.val 0)) z

/-- fixed_base_exp.cc:137-143 `ModExp`: negative exponents are InvalidArgument. -/
def modExp (f : FixedBaseExp) (e : BigNum) : Res BigNum :=
  if e < 0 then .err .invalidArgument
  else match f with
    | simple base modulus => BN.modExp base e modulus
    | twoKAry c cache => do
        let values ← BN.toBytes e
        return Mont.toBigNum c (twoKAryLoop c cache values (cache.getD 0 0))

end FixedBaseExp

/-! ### Simultaneous exponentiation (simultaneous_fixed_bases_exp.cc) -/

/-- simultaneous_fixed_bases_exp.cc:34-78: the `Mul` and `IsZero` (is the
multiplicative identity) operations of the two instantiations. -/
structure ElemOps (α : Type) where
  mul : α → α → α
  isOne : α → Bool

/-- simultaneous_fixed_bases_exp.cc:44-59: `BigNum` modulo `context.modulus`. -/
def znOps (m : BigNum) : ElemOps BigNum := ⟨fun a b => a * b % m, fun a => a = 1⟩

/-- simultaneous_fixed_bases_exp.cc:61-78: Montgomery numbers. -/
def montOps (c : MontCtx) : ElemOps BigNum := ⟨Mont.mul c, fun a => Mont.toBigNum c a = 1⟩

/-- simultaneous_fixed_bases_exp.h:107-113: the object's state. -/
structure SimExp (α : Type) where
  numBases : Nat
  numSimultaneous : Nat
  numBatches : Nat
  zero : α
  ops : ElemOps α
  table : List (List α)

namespace SimExp
variable {α : Type}

/-- simultaneous_fixed_bases_exp.cc:139-155: the inner loop, `n` iterations left,
at index `j`, with `hob` the highest one bit so far. -/
def rowLoop [Inhabited α] (ops : ElemOps α) (bases : List α) (start : Nat) :
    Nat → Nat → Nat → List α → List α
  | 0, _, _, row => row
  | n + 1, j, hob, row =>
    let hob' := if j.testBit (hob + 1) then hob + 1 else hob
    let prev := j - 2 ^ hob'
    let e := if prev = 0 then bases.getD (start + hob') default
             else ops.mul (row.getD prev default) (bases.getD (start + hob') default)
    rowLoop ops bases start n (j + 1) hob' (row ++ [e])

/-- simultaneous_fixed_bases_exp.cc:129-156: one batch of the table.  The shift
`1 << num_items_in_batch` is on `int`: 31 or more items is undefined behaviour. -/
def precomputeRow [Inhabited α] (ops : ElemOps α) (bases : List α) (zero : α)
    (numSimultaneous i : Nat) : Res (List α) :=
  let start := i * numSimultaneous
  let items := min (bases.length - start) numSimultaneous
  if 31 ≤ items then .ub
  else .ok (rowLoop ops bases start (2 ^ items - 1) 1 0 [zero])

/-- simultaneous_fixed_bases_exp.cc:125-158 `Precompute`. -/
def precompute [Inhabited α] (ops : ElemOps α) (bases : List α) (zero : α)
    (numSimultaneous numBatches : Nat) : Res (List (List α)) :=
  (List.range numBatches).mapM (precomputeRow ops bases zero numSimultaneous)

/-- simultaneous_fixed_bases_exp.cc:96-121 `Create`. -/
def create [Inhabited α] (ops : ElemOps α) (bases : List α) (zero : α)
    (numSimultaneous : Nat) : Res (SimExp α) :=
  if numSimultaneous = 0 then .err .invalidArgument
  else if bases.length < numSimultaneous then .err .invalidArgument
  else do
    let numBatches := (bases.length + numSimultaneous - 1) / numSimultaneous
    let table ← precompute ops bases zero numSimultaneous numBatches
    return ⟨bases.length, numSimultaneous, numBatches, zero, ops, table⟩

/-- simultaneous_fixed_bases_exp.cc:168-173: the longest exponent. -/
def maxBitLength (es : List BigNum) : Nat :=
  es.foldl (fun acc e => if acc < BN.bitLength e then BN.bitLength e else acc) 0

/-- simultaneous_fixed_bases_exp.cc:180-190: the table index of batch `j` for bit `i`. -/
def precomputeIdx (s : SimExp α) (es : List BigNum) (i j : Nat) : Nat :=
  let batchSize := if s.numBases - j * s.numSimultaneous < s.numSimultaneous
    then s.numBases - j * s.numSimultaneous else s.numSimultaneous
  (List.range batchSize).foldl
    (fun idx k => if BN.isBitSet (es.getD (j * s.numSimultaneous + k) 0) i
      then idx + 2 ^ k else idx) 0

/-- simultaneous_fixed_bases_exp.cc:175-198: one iteration of the loop over bits. -/
def bitStep [Inhabited α] (s : SimExp α) (es : List BigNum) (i : Nat) (result : α) : α :=
  let result := if s.ops.isOne result then result else s.ops.mul result result
  (List.range s.numBatches).foldl
    (fun r j =>
      let idx := precomputeIdx s es i j
      if idx ≠ 0 then s.ops.mul r ((s.table.getD j []).getD idx default) else r) result

/-- simultaneous_fixed_bases_exp.cc:175: the loop from bit `n - 1` down to bit 0. -/
def expLoop [Inhabited α] (s : SimExp α) (es : List BigNum) : Nat → α → α
  | 0, r => r
  | n + 1, r => expLoop s es n (bitStep s es n r)

/-- simultaneous_fixed_bases_exp.cc:161-200 `SimultaneousExp`. -/
def simultaneousExp [Inhabited α] (s : SimExp α) (es : List BigNum) : Res α :=
  if es.length ≠ s.numBases then .err .invalidArgument
  else .ok (expLoop s es (maxBitLength es) s.zero)

end SimExp

/-! ### Two-modulus CRT (two_modulus_crt.cc) -/

/-- two_modulus_crt.h: the precomputed terms. -/
structure Crt where
  term1 : BigNum
  term2 : BigNum
  product : BigNum

namespace Crt

/-- two_modulus_crt.cc:20-23 constructor: `.value()` aborts when not coprime. -/
def new (c1 c2 : BigNum) : Res Crt := do
  let i1 ← (BN.modInverse c2 c1).value
  let i2 ← (BN.modInverse c1 c2).value
  return ⟨c2 * i1, c1 * i2, c1 * c2⟩

/-- two_modulus_crt.cc:25-29 `Compute`. -/
def compute (c : Crt) (s1 s2 : BigNum) : Res BigNum :=
  BN.mod (s1 * c.term1 + s2 * c.term2) c.product

end Crt
end PJC
