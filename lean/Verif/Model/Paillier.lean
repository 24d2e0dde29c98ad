import Verif.Model.Exp
/-
Model of the Damgard-Jurik (generalized Paillier) cryptosystem,
/repo/private_join_and_compute/crypto/paillier.cc.
The table functions are shared with the Camenisch-Shoup code, which contains the
same functions (camenisch_shoup.cc:36-111).

Random draws are arguments.  Vector accesses inside the range established by the
constructor are `getD _ 0`.
-/
namespace PJC

namespace DJ

/-- paillier.cc:121-128 (camenisch_shoup.cc:49-56) `GetPowers`, the loop:
`n` further products. -/
def powersLoop (num : BigNum) : Nat → List BigNum → List BigNum
  | 0, ps => ps
  | n + 1, ps => powersLoop num n (ps ++ [ps.getLastD 0 * num])

/-- paillier.cc:121-128 (camenisch_shoup.cc:49-56) `GetPowers`: `num^i` for `i` in `[0, s+1]`. -/
def getPowers (num : BigNum) (s : Nat) : List BigNum := powersLoop num (s + 1) [1]

/-- paillier.cc:135-139 (camenisch_shoup.cc:40-44): the loop of `GetPrecomp`, `n` iterations
left starting at index `i`. -/
def precompLoop (num modulus : BigNum) : Nat → Nat → List BigNum → Res (List BigNum)
  | 0, _, pre => .ok pre
  | n + 1, i, pre => do
    let iInv ← (BN.modInverse (i : Int) modulus).value
    let iInvN := iInv * num % modulus
    precompLoop num modulus n (i + 1) (pre ++ [pre.getLastD 0 * iInvN % modulus])

/-- paillier.cc:131-141 (camenisch_shoup.cc:36-46) `GetPrecomp`. -/
def getPrecomp (num modulus : BigNum) (s : Nat) : Res (List BigNum) :=
  precompLoop num modulus s 1 [1]

/-- paillier.cc:44-80 `BigNumTable` (camenisch_shoup.cc:62 uses `std::map`): partial map from
(k, j) to a number. -/
abbrev Table := Nat → Nat → Option BigNum

/-- paillier.cc:58-62 `BigNumTable::Insert` (`insert` keeps an existing entry). -/
def Table.insert (t : Table) (x y : Nat) (v : BigNum) : Table :=
  fun x' y' => if x' = x ∧ y' = y then (match t x y with | some w => some w | none => some v)
    else t x' y'

/-- paillier.cc:67-75 `BigNumTable::Get`: aborts when missing. -/
def Table.get (t : Table) (x y : Nat) : Res BigNum :=
  match t x y with
  | some v => .ok v
  | none => .crash

/-- paillier.cc:164-166 (camenisch_shoup.cc:81-85): the inner loop `j = s-1 .. k`; `n` is the
number of iterations left and `j + 1` the column filled last. -/
def decRowLoop (powers : List BigNum) (k : Nat) : Nat → Nat → Table → Res Table
  | 0, _, t => .ok t
  | n + 1, j1, t => do
    let v ← t.get k j1
    decRowLoop powers k n (j1 - 1) (t.insert k (j1 - 1) (v % powers.getD (j1 - 1) 0))

/-- paillier.cc:161-167 (camenisch_shoup.cc:77-86): the outer loop over `k`. -/
def decTableLoop (precomp powers : List BigNum) (s : Nat) : Nat → Nat → Table → Res Table
  | 0, _, t => .ok t
  | n + 1, k, t => do
    let kInv ← (BN.modInverse (k : Int) (powers.getD s 0)).value
    let t' ← decRowLoop powers k (s - k) s
      (t.insert k s (kInv * precomp.getD (k - 1) 0 % powers.getD s 0))
    decTableLoop precomp powers s n (k + 1) t'

/-- paillier.cc:145-169 (camenisch_shoup.cc:62-88) `GetDecryptPrecomp`. -/
def getDecryptPrecomp (precomp powers : List BigNum) (s : Nat) : Res Table :=
  decTableLoop precomp powers s (s - 1) 2 (fun _ _ => none)

/-- paillier.cc:183-190 (camenisch_shoup.cc:102-109): the loop with its early exit. -/
def binomLoop (precomp powers : List BigNum) (s : Nat) (rm : BigNum) :
    Nat → Nat → BigNum → BigNum → BigNum
  | 0, _, c, _ => c
  | n + 1, j, c, tmp =>
    if rm < (j : Int) then c
    else
      let tmp' := tmp * (rm - (j : Int) + 1) % powers.getD (s - j + 1) 0
      binomLoop precomp powers s rm n (j + 1)
        (c + tmp' * precomp.getD j 0 % powers.getD (s + 1) 0) tmp'

/-- paillier.cc:173-192 (camenisch_shoup.cc:92-111) `ComputeByBinomialExpansion`. -/
def binomialExpansion (precomp powers : List BigNum) (message : BigNum) : BigNum :=
  let s := precomp.length - 1
  let rm := message % powers.getD s 0
  binomLoop precomp powers s rm s 1 1 1

end DJ

/-! ### Generators -/

/-- paillier.cc:38. -/
def kGeneratorTryCount : Nat := 1000

/-- paillier.cc:88-95: the search loop. -/
def generatorLoop (p q : BigNum) : Nat → BigNum → Res BigNum
  | 0, _ => .crash
  | n + 1, g =>
    if g * g % p = 1 ∨ g ^ q.toNat % p = 1 then generatorLoop p q n (g + 1) else .ok g

/-- paillier.cc:85-99 `GetGeneratorForSafePrime`. -/
def getGeneratorForSafePrime (p : BigNum) : Res BigNum := do
  let safe ← BN.isSafePrime p
  if safe = false then .crash
  else
    let q ← BN.div (p - 1) 2
    generatorLoop p q kGeneratorTryCount 2

/-- paillier.cc:112-118 `GetGeneratorOfPrimePowersFromSafePrime`. -/
def getGeneratorOfPrimePowers (p : BigNum) : Res BigNum := do
  let g ← getGeneratorForSafePrime p
  if g ^ (p - 1).toNat % (p * p) = 1 then return g + p else return g

/-- paillier.cc:103-109 `GetGeneratorForSafeModulus`; `x` is the value drawn by
`RelativelyPrimeRandomLessThan(n)`. -/
def getGeneratorForSafeModulus (n x : BigNum) : BigNum := n - x * x % n

/-! ### PrimeCrypto -/

/-- paillier.cc:301-312: state of `PrimeCrypto`. -/
structure PrimeCrypto where
  p : BigNum
  pPhi : BigNum
  n : BigNum
  s : Nat
  powers : List BigNum
  precomp : List BigNum
  lambdaInv : BigNum
  otherPrimeInv : BigNum
  decryptPrecomp : DJ.Table
  gP : BigNum
  fbe : FixedBaseExp

/-- The exponentiation configuration: the flag `--two_k_ary_exp` and the Montgomery radix. -/
structure ExpCfg where
  flag : Bool
  radixBits : Nat

namespace PrimeCrypto

/-- paillier.cc:234-248 constructor. -/
def new (cfg : ExpCfg) (p other : BigNum) (s : Nat) : Res PrimeCrypto := do
  let n := p * other
  let powers := DJ.getPowers p s
  let precomp ← DJ.getPrecomp n (powers.getD (s + 1) 0) s
  let lambdaInv ← (BN.modInverse (p - 1) (powers.getD s 0)).value
  let otherInv ← (BN.modInverse other (powers.getD s 0)).value
  let table ← DJ.getDecryptPrecomp precomp powers s
  let g ← getGeneratorOfPrimePowers p
  let base ← BN.modExp g (n ^ s) (powers.getD (s + 1) 0)
  let fbe ← FixedBaseExp.get cfg.flag cfg.radixBits base (powers.getD (s + 1) 0)
  return ⟨p, p - 1, n, s, powers, precomp, lambdaInv, otherInv, table, g, fbe⟩

/-- paillier.cc:289 `GetPToExp`. -/
def pToExp (pc : PrimeCrypto) (i : Nat) : BigNum := pc.powers.getD i 0

/-- paillier.cc:262-266 `EncryptWithRand`. -/
def encryptWithRand (pc : PrimeCrypto) (m r : BigNum) : Res BigNum := do
  let cp := DJ.binomialExpansion pc.precomp pc.powers m
  let gToR ← pc.fbe.modExp r
  return cp * gToR % pc.pToExp (pc.s + 1)

/-- paillier.cc:296-299 `LFunc`; the division is the exact `Div`. -/
def lFunc (pc : PrimeCrypto) (c : BigNum) : Res BigNum := do
  let d ← BN.div (c - 1) pc.p
  return d * pc.otherPrimeInv % pc.pToExp pc.s

/-- paillier.cc:278-282: the loop over `k`, `n` iterations left. -/
def decInner (pc : PrimeCrypto) (j : Nat) : Nat → Nat → BigNum → BigNum → BigNum → Res BigNum
  | 0, _, _, t1, _ => .ok t1
  | n + 1, k, mLambda, t1, t2 => do
    let mLambda' := mLambda - 1
    let t2' := t2 * mLambda' % pc.pToExp j
    let v ← pc.decryptPrecomp.get k j
    decInner pc j n (k + 1) mLambda' (t1 - t2' * v) t2'

/-- paillier.cc:275-284: the loop over `j`, `n` iterations left. -/
def decOuter (pc : PrimeCrypto) (lu : BigNum) : Nat → Nat → BigNum → Res BigNum
  | 0, _, mLambda => .ok mLambda
  | n + 1, j, mLambda => do
    let t1 := lu % pc.pToExp j
    let r ← decInner pc j (j - 1) 2 mLambda t1 mLambda
    decOuter pc lu n (j + 1) r

/-- paillier.cc:270-286 `Decrypt`. -/
def decrypt (pc : PrimeCrypto) (c : BigNum) : Res BigNum := do
  let u ← BN.modExp c pc.pPhi (pc.pToExp (pc.s + 1))
  let lu ← pc.lFunc u
  let mLambda ← decOuter pc lu pc.s 1 0
  return mLambda * pc.lambdaInv % pc.pToExp pc.s

end PrimeCrypto

/-! ### PublicPaillier -/

/-- paillier.h `PublicPaillier` members. -/
structure PublicPaillier where
  n : BigNum
  s : Nat
  nPowers : List BigNum
  modulus : BigNum
  gnFbe : FixedBaseExp
  precomp : List BigNum

namespace PublicPaillier

/-- paillier.cc:362-372 constructor.  `x` is the draw of `RelativelyPrimeRandomLessThan(n)`
(context.cc:202-208), whose `BN_rand_range` aborts when `n` is not positive. -/
def new (cfg : ExpCfg) (x n : BigNum) (s : Nat) : Res PublicPaillier :=
  if n ≤ 0 then .crash
  else do
    let nPowers := DJ.getPowers n s
    let modulus := nPowers.getLastD 0
    let base ← BN.modExp (getGeneratorForSafeModulus n x) (nPowers.getD s 0) modulus
    let fbe ← FixedBaseExp.get cfg.flag cfg.radixBits base modulus
    let precomp ← DJ.getPrecomp n modulus s
    return ⟨n, s, nPowers, modulus, fbe, precomp⟩

/-- paillier.cc:384-387 `Add`. -/
def add (pk : PublicPaillier) (c1 c2 : BigNum) : BigNum := c1 * c2 % pk.modulus

/-- paillier.cc:389-391 `Multiply` (aborts on a negative multiplier, see `BN.modExp`). -/
def multiply (pk : PublicPaillier) (c m : BigNum) : Res BigNum := BN.modExp c m pk.modulus

/-- paillier.cc:393-395 `LeftShift`. -/
def leftShift (pk : PublicPaillier) (c : BigNum) (shift : Int) : Res BigNum := do
  let m ← BN.lshift 1 shift
  pk.multiply c m

/-- paillier.cc:409-418 `EncryptUsingGeneratorAndRand`. -/
def encryptUsingGeneratorAndRand (pk : PublicPaillier) (m r : BigNum) : Res BigNum :=
  if pk.n < r then .err .invalidArgument
  else do
    let c := DJ.binomialExpansion pk.precomp pk.nPowers m
    let g ← pk.gnFbe.modExp r
    return c * g % pk.modulus

/-- paillier.cc:397-407 `Encrypt`; `r` is the draw of `GenerateRandLessThan(n)`. -/
def encrypt (pk : PublicPaillier) (m r : BigNum) : Res BigNum :=
  if m < 0 then .err .invalidArgument
  else if pk.nPowers.getD pk.s 0 ≤ m then .err .invalidArgument
  else pk.encryptUsingGeneratorAndRand m r

/-- paillier.cc:420-428 `EncryptWithRand`. -/
def encryptWithRand (pk : PublicPaillier) (m r : BigNum) : Res BigNum :=
  if Int.gcd r pk.n ≠ 1 then .err .invalidArgument
  else do
    let c := DJ.binomialExpansion pk.precomp pk.nPowers m
    let x ← BN.modExp r (pk.nPowers.getD pk.s 0) pk.modulus
    return c * x % pk.modulus

/-- paillier.cc:430-435 `EncryptAndGetRand`; `r` is the draw of
`RelativelyPrimeRandomLessThan(n)`. -/
def encryptAndGetRand (pk : PublicPaillier) (m r : BigNum) : Res (BigNum × BigNum) := do
  let c ← pk.encryptWithRand m r
  return (c, r)

end PublicPaillier

/-! ### PrivatePaillier -/

/-- paillier.h `PrivatePaillier` members. -/
structure PrivatePaillier where
  nToS : BigNum
  nToSPlusOne : BigNum
  pCrypto : PrimeCrypto
  qCrypto : PrimeCrypto
  crtEncrypt : Crt
  crtDecrypt : Crt

namespace PrivatePaillier

/-- paillier.cc:439-449 constructor. -/
def new (cfg : ExpCfg) (p q : BigNum) (s : Nat) : Res PrivatePaillier := do
  let nToS := (p * q) ^ s
  let pc ← PrimeCrypto.new cfg p q s
  let qc ← PrimeCrypto.new cfg q p s
  let ce ← Crt.new (pc.pToExp (s + 1)) (qc.pToExp (s + 1))
  let cd ← Crt.new (pc.pToExp s) (qc.pToExp s)
  return ⟨nToS, nToS * p * q, pc, qc, ce, cd⟩

/-- paillier.cc:457-469 `Encrypt`; `rp`, `rq` are the draws of `GenerateRandBetween(1, p)`,
`GenerateRandBetween(1, q)` (paillier.cc:255-257). -/
def encrypt (sk : PrivatePaillier) (m rp rq : BigNum) : Res BigNum :=
  if m < 0 then .err .invalidArgument
  else if sk.nToS ≤ m then .err .invalidArgument
  else do
    let cp ← sk.pCrypto.encryptWithRand m rp
    let cq ← sk.qCrypto.encryptWithRand m rq
    sk.crtEncrypt.compute cp cq

/-- paillier.cc:474-485 `Decrypt`. -/
def decrypt (sk : PrivatePaillier) (c : BigNum) : Res BigNum :=
  if c < 0 then .err .invalidArgument
  else if sk.nToSPlusOne ≤ c then .err .invalidArgument
  else do
    let mp ← sk.pCrypto.decrypt c
    let mq ← sk.qCrypto.decrypt c
    sk.crtDecrypt.compute mp mq

end PrivatePaillier

/-! ### PrivatePaillierWithRand -/

/-- paillier.cc:354-358, 487-497: the added members. -/
structure PrivatePaillierWithRand where
  sk : PrivatePaillier
  crtRand : Crt
  pExp : FixedBaseExp
  qExp : FixedBaseExp

namespace PrivatePaillierWithRand

/-- paillier.cc:487-497 constructor, with 319-324 (`PrimeCryptoWithRand`). -/
def new (cfg : ExpCfg) (sk : PrivatePaillier) : Res PrivatePaillierWithRand := do
  let crt ← Crt.new (sk.pCrypto.pToExp 1) (sk.qCrypto.pToExp 1)
  let pe ← FixedBaseExp.get cfg.flag cfg.radixBits sk.pCrypto.gP
    (sk.pCrypto.pToExp (sk.pCrypto.s + 1))
  let qe ← FixedBaseExp.get cfg.flag cfg.radixBits sk.qCrypto.gP
    (sk.qCrypto.pToExp (sk.qCrypto.s + 1))
  return ⟨sk, crt, pe, qe⟩

/-- paillier.cc:505-525 `EncryptAndGetRand`, with 343-349 inlined; `rp`, `rq` are the draws. -/
def encryptAndGetRand (w : PrivatePaillierWithRand) (m rp rq : BigNum) :
    Res (BigNum × BigNum) :=
  if m < 0 then .err .invalidArgument
  else if w.sk.nToS ≤ m then .err .invalidArgument
  else do
    let cp ← w.sk.pCrypto.encryptWithRand m rp
    let gp ← w.pExp.modExp rp
    let cq ← w.sk.qCrypto.encryptWithRand m rq
    let gq ← w.qExp.modExp rq
    let c ← w.sk.crtEncrypt.compute cp cq
    let r ← w.crtRand.compute gp gq
    return (c, r)

end PrivatePaillierWithRand
end PJC
