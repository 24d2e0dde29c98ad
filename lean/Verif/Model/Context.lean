import Verif.Model.BigNum
/-
Model of /repo/private_join_and_compute/crypto/context.{h,cc}: random oracle, PRF and
sampling.  The hash functions and HMAC are parameters.  A random draw is an explicit
argument.
-/
namespace PJC

/-- The digest functions of OpenSSL used by the code: `Sha256String`, `Sha384String`,
`Sha512String` (context.cc:63-94) and HMAC-SHA512 (context.cc:151-158).  Arbitrary
functions; nothing about SHA-2 is modelled. -/
structure Hashes where
  sha256 : Bytes → Bytes
  sha384 : Bytes → Bytes
  sha512 : Bytes → Bytes
  hmacSha512 : (key data : Bytes) → Bytes

namespace Ctx

/-- context.cc:115, the hash input of one random-oracle block:
`StrCat(CreateBigNum(i).ToBytes(), x)`. -/
def oracleInput (i : Nat) (x : Bytes) : Bytes := BN.natToBytes i ++ x

/-- context.cc:113-125, the loop of `RandomOracle`: `n` iterations left, the next
counter is `i`. -/
def oracleLoop (h : Bytes → Bytes) (len : Nat) (x : Bytes) : Nat → Nat → BigNum → BigNum
  | 0, _, acc => acc
  | n + 1, i, acc =>
    oracleLoop h len x n (i + 1) (acc * 2 ^ len + BN.ofBytes (h (oracleInput i x)))

/-- context.cc:104-106 `iter_count = ceil(output_bit_length / hash_output_length)`.
The C++ divides in `float`; below the CHECKed limit of 130048 bits the float quotient
is never rounded onto or across an integer, so the exact ceiling is the same value. -/
def iterCount (len : Nat) (max : BigNum) : Nat :=
  (BN.bitLength max + len + len - 1) / len

/-- context.cc:96-127 `RandomOracle` with a hash of `len` output bits.  (`int`
overflow for bounds of about 2^31 bits is not modelled.) -/
def randomOracle (h : Bytes → Bytes) (len : Nat) (x : Bytes) (max : BigNum) : Res BigNum :=
  let outputBits := BN.bitLength max + len
  let iter := iterCount len max
  if iter * len < 130048 then do
    let excess : Int := ((iter * len : Nat) : Int) - (outputBits : Int)
    let shifted ← BN.rshift (oracleLoop h len x iter 1 0) excess
    BN.mod shifted max
  else .crash

/-- context.cc:139-142 `RandomOracleSha256`. -/
def randomOracleSha256 (H : Hashes) (x : Bytes) (max : BigNum) : Res BigNum :=
  randomOracle H.sha256 256 x max
/-- context.cc:134-137 `RandomOracleSha384`. -/
def randomOracleSha384 (H : Hashes) (x : Bytes) (max : BigNum) : Res BigNum :=
  randomOracle H.sha384 384 x max
/-- context.cc:129-132 `RandomOracleSha512`. -/
def randomOracleSha512 (H : Hashes) (x : Bytes) (max : BigNum) : Res BigNum :=
  randomOracle H.sha512 512 x max

/-- context.cc:144-167 `PRF`: rejection by recursion.  The recursion has no bound in
the C++; `fuel` bounds the model and `none` means "has not returned yet". -/
def prf (H : Hashes) : (fuel : Nat) → (key data : Bytes) → (max : BigNum) →
    Option (Res BigNum)
  | 0, _, _, _ => none
  | fuel + 1, key, data, max =>
    if key.length * 8 < 80 then some .crash
    else if 512 < BN.bitLength max then some .crash
    else
      let hashBn := BN.ofBytes (H.hmacSha512 key data)
      let reduced := BN.getLastNBits hashBn (BN.bitLength max)
      if reduced < max then some (.ok reduced)
      else
        -- hash_bn is never negative, so ToBytes does not abort
        prf H fuel key (BN.natToBytes hashBn.toNat) max

/-- context.cc:183-187 `GenerateRandLessThan` (`BN_rand_range`, which fails on a
non-positive bound).  The random word `w` is arbitrary; every value of `[0, max)` is
the image of some word. -/
def randLessThan (w : Nat) (max : BigNum) : Res BigNum :=
  if max ≤ 0 then .crash else .ok ((w : Int) % max)

/-- context.cc:189-192 `GenerateRandBetween`. -/
def randBetween (w : Nat) (start stop : BigNum) : Res BigNum :=
  if start < stop then do
    let r ← randLessThan w (stop - start)
    return r + start
  else .crash

/-- context.cc:202-208 `RelativelyPrimeRandomLessThan`: draws until coprime.  The
arbitrary list of words stands for the successive draws; `none` means all of them
were rejected (the C++ keeps drawing). -/
def relPrimeLessThan : (words : List Nat) → (num : BigNum) → Option (Res BigNum)
  | [], _ => none
  | w :: ws, num =>
    match randLessThan w num with
    | .ok r => if BN.gcd r num > 1 then relPrimeLessThan ws num else some (.ok r)
    | .err c => some (.err c)
    | .crash => some .crash
    | .ub => some .ub

/-- context.cc:194-200 `GenerateRandomBytes`: the bytes drawn are the first
`num_bytes` of an arbitrary stream. -/
def randomBytes (stream : Nat → Byte) (n : Int) : Res Bytes :=
  if n < 0 then .crash else .ok ((List.range n.toNat).map stream)

end Ctx
end PJC
