import Verif.Model.Paillier
/-
Model of /repo/private_join_and_compute/crypto/camenisch_shoup.cc.  The helpers `GetPrecomp`
(36-46), `GetPowers` (49-56), `GetDecryptPrecomp` (62-88) and `ComputeByBinomialExpansion`
(92-111) are the same code as in paillier.cc and are modelled once, in `DJ`.
`GetPowers` takes `s` as an `int`; parameters `s` beyond 2^31 are not modelled.
Random draws are arguments.
-/
namespace PJC

/-- camenisch_shoup.h `CamenischShoupCiphertext`. -/
structure CsCt where
  u : BigNum
  es : List BigNum
  deriving DecidableEq, Repr

/-- camenisch_shoup.h `CamenischShoupPublicKey` (the vector length is the length of `ys`). -/
structure CsPublicKey where
  n : BigNum
  s : Nat
  g : BigNum
  ys : List BigNum
  deriving DecidableEq, Repr

/-- camenisch_shoup.h `CamenischShoupPrivateKey`. -/
structure CsPrivateKey where
  xs : List BigNum
  deriving DecidableEq, Repr

/-- camenisch_shoup.proto `CamenischShoupPublicKey`. -/
structure CsPublicKeyProto where
  n : Bytes
  g : Bytes
  ys : List Bytes
  s : Nat

/-- camenisch_shoup.proto `CamenischShoupCiphertext`. -/
structure CsCtProto where
  u : Bytes
  es : List Bytes

/-- proto/proto_util.cc:31-40 `BigNumVectorToProto` (aborts on a negative entry). -/
def bigNumVectorToProto (v : List BigNum) : Res (List Bytes) := v.mapM BN.toBytes

/-- proto/proto_util.cc:42-50 `ParseBigNumVectorProto`. -/
def parseBigNumVectorProto (v : List Bytes) : List BigNum := v.map BN.ofBytes

/-- Members common to `PublicCamenischShoup` and `PrivateCamenischShoup`
(camenisch_shoup.h). -/
structure CsPublic where
  n : BigNum
  s : Nat
  len : Nat
  powers : List BigNum
  precomp : List BigNum
  nToS : BigNum
  modulus : BigNum
  gFbe : FixedBaseExp
  ysFbe : List FixedBaseExp
  g : BigNum
  ys : List BigNum

/-- `PrivateCamenischShoup`: additional members. -/
structure CsPrivate where
  pub : CsPublic
  table : DJ.Table
  xs : List BigNum

namespace Cs

/-- camenisch_shoup.cc:231-237 `GetGeneratorForCamenischShoup`; `x` is the draw of
`RelativelyPrimeRandomLessThan(n^(s+1))`. -/
def getGenerator (n : BigNum) (s : Nat) (x : BigNum) : Res BigNum :=
  BN.modExp x (2 * n ^ s) (n ^ (s + 1))

/-- camenisch_shoup.cc:185-204 `GenerateCamenischShoupKeyBase` and 257-270
`GenerateCamenischShoupKeyPair`; `xs` are the draws of `RelativelyPrimeRandomLessThan(n)`, one
per vector component. -/
def generateKeyPair (n : BigNum) (s : Nat) (x : BigNum) (xs : List BigNum) :
    Res (CsPublicKey × CsPrivateKey) := do
  let g ← getGenerator n s x
  let ys ← xs.mapM (fun x => BN.modExp g x (n ^ (s + 1)))
  return (⟨n, s, g, ys⟩, ⟨xs⟩)

/-- camenisch_shoup.cc:273-281 `CamenischShoupPublicKeyToProto`. -/
def publicKeyToProto (pk : CsPublicKey) : Res CsPublicKeyProto := do
  let n ← BN.toBytes pk.n
  let g ← BN.toBytes pk.g
  let ys ← bigNumVectorToProto pk.ys
  return ⟨n, g, ys, pk.s⟩

/-- camenisch_shoup.cc:283-315 `ParseCamenischShoupPublicKeyProto`.  `s` is a `uint64_t`, so that
`s + 1` wraps. -/
def parsePublicKeyProto (p : CsPublicKeyProto) : Res CsPublicKey :=
  let n := BN.ofBytes p.n
  if n ≤ 0 then .err .invalidArgument
  else if p.s = 0 then .err .invalidArgument
  else
    let modulus := n ^ ((p.s + 1) % 2 ^ 64)
    let g := BN.ofBytes p.g
    if g ≤ 0 ∨ modulus ≤ g ∨ Int.gcd g n ≠ 1 then .err .invalidArgument
    else
      let ys := parseBigNumVectorProto p.ys
      if ys.isEmpty then .err .invalidArgument
      else if ys.any (fun y => y ≤ 0 ∨ modulus ≤ y ∨ Int.gcd y n ≠ 1) then .err .invalidArgument
      else .ok ⟨n, p.s, g, ys⟩

/-- camenisch_shoup.cc:332-338 `CamenischShoupCiphertextToProto`. -/
def ciphertextToProto (ct : CsCt) : Res CsCtProto := do
  let u ← BN.toBytes ct.u
  let es ← bigNumVectorToProto ct.es
  return ⟨u, es⟩

/-- camenisch_shoup.cc:340-358 constructor of `PublicCamenischShoup`. -/
def newPublic (cfg : ExpCfg) (n : BigNum) (s : Nat) (g : BigNum) (ys : List BigNum) :
    Res CsPublic := do
  let powers := DJ.getPowers n s
  let precomp ← DJ.getPrecomp n (powers.getD (s + 1) 0) s
  let gFbe ← FixedBaseExp.get cfg.flag cfg.radixBits g (powers.getD (s + 1) 0)
  let ysFbe ← ys.mapM
    (fun y => FixedBaseExp.get cfg.flag cfg.radixBits y (powers.getD (s + 1) 0))
  return ⟨n, s, ys.length, powers, precomp, powers.getD s 0, powers.getD (s + 1) 0, gFbe, ysFbe,
    g, ys⟩

/-- camenisch_shoup.cc:417-440 constructor of `PrivateCamenischShoup`. -/
def newPrivate (cfg : ExpCfg) (n : BigNum) (s : Nat) (g : BigNum) (ys xs : List BigNum) :
    Res CsPrivate := do
  let pub ← newPublic cfg n s g ys
  let table ← DJ.getDecryptPrecomp pub.precomp pub.powers s
  if ys.length ≠ xs.length then .crash
  else return ⟨pub, table, xs⟩

/-- camenisch_shoup.cc:133-145: the loop over the components. -/
def encLoop (pk : CsPublic) (r : BigNum) : List FixedBaseExp → List BigNum → Res (List BigNum)
  | [], _ => .ok []
  | f :: fs, ms => do
    let yr ← f.modExp r
    let e := match ms with
      | m :: _ => yr * DJ.binomialExpansion pk.precomp pk.powers m % pk.modulus
      | [] => yr
    let rest ← encLoop pk r fs ms.tail
    return e :: rest

/-- camenisch_shoup.cc:113-147 `CommonEncryptWithRand`. -/
def encryptWithRand (pk : CsPublic) (ms : List BigNum) (r : BigNum) : Res CsCt :=
  if pk.ysFbe.length < ms.length then .err .invalidArgument
  else if r < 0 ∨ (Int.gcd r pk.n ≠ 1 ∧ r ≠ 0) then .err .invalidArgument
  else do
    let u ← pk.gFbe.modExp r
    let es ← encLoop pk r pk.ysFbe ms
    return ⟨u, es⟩

/-- camenisch_shoup.cc:149-169 `CommonEncryptAndGetRand`; `r` is the draw of
`RelativelyPrimeRandomLessThan(n)`. -/
def encryptAndGetRand (pk : CsPublic) (ms : List BigNum) (r : BigNum) : Res (CsCt × BigNum) :=
  if ms.any (fun m => m < 0) then .err .invalidArgument
  else do
    let ct ← encryptWithRand pk ms r
    return (ct, r)

/-- camenisch_shoup.cc:171-181 `CommonEncrypt`. -/
def encrypt (pk : CsPublic) (ms : List BigNum) (r : BigNum) : Res CsCt := do
  let x ← encryptAndGetRand pk ms r
  return x.1

/-- camenisch_shoup.cc:387-398 `Add`. -/
def add (pk : CsPublic) (c1 c2 : CsCt) : Res CsCt :=
  if c1.es.length ≠ c2.es.length then .crash
  else if c1.es.length ≠ pk.len then .crash
  else do
    let u ← BN.modMul c1.u c2.u pk.modulus
    let es ← (c1.es.zip c2.es).mapM (fun e => BN.modMul e.1 e.2 pk.modulus)
    return ⟨u, es⟩

/-- camenisch_shoup.cc:405-407: the loop over indices below the vector length; an index beyond
the vector `ct.es` is undefined behaviour. -/
def multiplyLoop (k modulus : BigNum) : Nat → List BigNum → Res (List BigNum)
  | 0, _ => .ok []
  | _ + 1, [] => .ub
  | n + 1, e :: es => do
    let v ← BN.modExp e k modulus
    let rest ← multiplyLoop k modulus n es
    return v :: rest

/-- camenisch_shoup.cc:400-409 `Multiply`. -/
def multiply (pk : CsPublic) (ct : CsCt) (k : BigNum) : Res CsCt := do
  let u ← BN.modExp ct.u k pk.modulus
  let es ← multiplyLoop k pk.modulus pk.len ct.es
  return ⟨u, es⟩

/-- camenisch_shoup.cc:206-227 `CommonParseCiphertextProto`. -/
def parseCiphertextProto (pk : CsPublic) (p : CsCtProto) : Res CsCt :=
  let u := BN.ofBytes p.u
  let es := parseBigNumVectorProto p.es
  if pk.modulus ≤ u ∨ u < 0 then .err .invalidArgument
  else if pk.len < es.length then .err .invalidArgument
  else if es.any (fun e => pk.modulus ≤ e ∨ e < 0) then .err .invalidArgument
  else .ok ⟨u, es⟩

/-- camenisch_shoup.cc:508-512: the loop over `k`, `n` iterations left.  `std::map::at` on a
missing key throws, i.e. ends the process. -/
def decInner (sk : CsPrivate) (j : Nat) : Nat → Nat → BigNum → BigNum → BigNum → Res BigNum
  | 0, _, _, t1, _ => .ok t1
  | n + 1, k, m, t1, t2 => do
    let m' := m - 1
    let t2' := t2 * m' % sk.pub.powers.getD j 0
    let v ← sk.table.get k j
    decInner sk j n (k + 1) m' (t1 - t2' * v % sk.pub.powers.getD j 0) t2'

/-- camenisch_shoup.cc:497-517: the loop over `j`, `n` iterations left. -/
def decOuter (sk : CsPrivate) (denoised : BigNum) : Nat → Nat → BigNum → Res BigNum
  | 0, _, m => .ok m
  | n + 1, j, m =>
    let intermediate := denoised % sk.pub.powers.getD (j + 1) 0 - 1
    if intermediate % sk.pub.n ≠ 0 then .err .invalidArgument
    else do
      let lu ← BN.div intermediate sk.pub.n
      let r ← decInner sk j (j - 1) 2 m lu m
      decOuter sk denoised n (j + 1) r

/-- camenisch_shoup.cc:489-520: the loop over the components. -/
def decLoop (sk : CsPrivate) (u : BigNum) : List BigNum → List BigNum → Res (List BigNum)
  | e :: es, x :: xs => do
    let ux ← BN.modExp u x sk.pub.modulus
    let inv ← BN.modInverse ux sk.pub.modulus
    let denoised ← BN.modMul e inv sk.pub.modulus
    let m ← decOuter sk denoised sk.pub.s 1 0
    let rest ← decLoop sk u es xs
    return m % sk.pub.powers.getD sk.pub.s 0 :: rest
  | _, _ => .ok []

/-- camenisch_shoup.cc:475-524 `Decrypt` (the constructor checks that `xs` has the vector
length, so both lists of the loop are equally long). -/
def decrypt (sk : CsPrivate) (ct : CsCt) : Res (List BigNum) :=
  if ct.es.length ≠ sk.pub.len then .err .invalidArgument
  else decLoop sk ct.u ct.es sk.xs

end Cs
end PJC
