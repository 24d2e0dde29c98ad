import Verif.Model.Exp
import Verif.Model.Context
import Verif.Model.CamenischShoup
/-
Model of /repo/private_join_and_compute/crypto/pedersen_over_zn.{h,cc}: vector commitments over
Z_n, the parameter proofs and `SplitVector`.  Random draws are arguments; SHA-512 is a
parameter.
-/
namespace PJC

/-- pedersen_over_zn.h `PedersenOverZn`, the members. -/
structure Pedersen where
  gs : List BigNum
  h : BigNum
  n : BigNum
  sim : SimExp BigNum

/-- pedersen_over_zn.h `Parameters`. -/
structure PedersenParams where
  gs : List BigNum
  h : BigNum
  n : BigNum
  rs : List BigNum
  deriving DecidableEq

/-- pedersen_over_zn.h `ProofOfGen`; `num_repetitions` is an `int`. -/
structure ProofOfGen where
  reps : Int
  dummyGs : List BigNum
  responses : List BigNum

/-- pedersen_over_zn.h `ProofOfGenForTrustedModulus`. -/
structure TrustedProof where
  challengeLength : Int
  dummyG : BigNum
  response : BigNum

/-- proto/pedersen.proto `PedersenParameters`. -/
structure PedersenProto where
  n : Bytes
  gs : List Bytes
  h : Bytes

namespace Ped

/-- pedersen_over_zn.cc:43-63 `Create`; an error of the precomputation aborts (`.value()`). -/
def create (gs : List BigNum) (h n : BigNum) (numSimultaneous : Nat) : Res Pedersen := do
  let bases := gs ++ [h]
  let adjusted := min bases.length numSimultaneous
  let sim ← (SimExp.create (znOps n) bases 1 adjusted).value
  return ⟨gs, h, n, sim⟩

/-- pedersen_over_zn.cc:103-109 and 148-154: the exponents, with zeros for missing messages. -/
def exponents (p : Pedersen) (ms : List BigNum) (r : BigNum) : List BigNum :=
  ms ++ List.replicate (p.gs.length - ms.length) 0 ++ [r]

/-- pedersen_over_zn.cc:85-115 `CommitWithRand`. -/
def commitWithRand (p : Pedersen) (ms : List BigNum) (r : BigNum) : Res BigNum :=
  if p.gs.length < ms.length then .err .invalidArgument
  else if ms.any (fun m => !BN.isNonNegative m) then .err .invalidArgument
  else if !BN.isNonNegative r then .err .invalidArgument
  else p.sim.simultaneousExp (exponents p ms r)

/-- pedersen_over_zn.cc:77-83 `Commit`: the commitment and its opening; `w` is the draw. -/
def commit (p : Pedersen) (ms : List BigNum) (w : Nat) : Res (BigNum × BigNum) := do
  let r ← Ctx.randLessThan w p.n
  let c ← commitWithRand p ms r
  return (c, r)

/-- pedersen_over_zn.cc:117-121 `Add`. -/
def add (p : Pedersen) (c1 c2 : BigNum) : Res BigNum := BN.modMul c1 c2 p.n

/-- pedersen_over_zn.cc:123-126 `Multiply`. -/
def multiply (p : Pedersen) (c k : BigNum) : Res BigNum := BN.modExp c k p.n

/-- pedersen_over_zn.cc:128-160 `Verify`. -/
def verify (p : Pedersen) (c : BigNum) (ms : List BigNum) (r : BigNum) : Res Bool :=
  if p.gs.length < ms.length then .err .invalidArgument
  else if ms.any (fun m => !BN.isNonNegative m) then .err .invalidArgument
  else if !BN.isNonNegative r then .err .invalidArgument
  else do
    let product ← p.sim.simultaneousExp (exponents p ms r)
    return decide (c = product)

/-- pedersen_over_zn.cc:173-178, the loop of `GenerateParameters`; `ws` are the draws, one per
iteration. -/
def genLoop (h n : BigNum) : List Nat → Res (List (BigNum × BigNum))
  | [] => .ok []
  | w :: ws => do
    let bound ← BN.divAndTruncate n 4
    let r ← Ctx.randLessThan w bound
    let g ← BN.modExp h r n
    let rest ← genLoop h n ws
    return (g, r) :: rest

/-- pedersen_over_zn.cc:162-180 `GenerateParameters`; `x` is the draw of
`RelativelyPrimeRandomLessThan(n)`, `ws` one draw for each of the `num_gs` generators. -/
def generateParameters (n x : BigNum) (ws : List Nat) : Res PedersenParams := do
  let h ← BN.modSqr x n
  let grs ← genLoop h n ws
  return ⟨grs.map Prod.fst, h, n, grs.map Prod.snd⟩

/-- pedersen_over_zn.cc:185-191 and 322-326: the bytes hashed for a challenge. -/
def transcript (g h n : BigNum) (dummyGs : List BigNum) : Res Bytes := do
  let bg ← BN.toBytes g
  let bh ← BN.toBytes h
  let bn ← BN.toBytes n
  let bd ← dummyGs.mapM BN.toBytes
  return bg ++ bh ++ bn ++ bd.flatten

/-- pedersen_over_zn.cc:199-204: the low bits, lowest first. -/
def bitsLoop : Nat → BigNum → Res (List Bool)
  | 0, _ => .ok []
  | k + 1, c => do
    let c' ← BN.rshift c 1
    let rest ← bitsLoop k c'
    return BN.isBitSet c 0 :: rest

/-- pedersen_over_zn.cc:182-207 `GetGenProofChallenge`. -/
def genProofChallenge (H : Hashes) (g h n : BigNum) (dummyGs : List BigNum) (reps : Int) :
    Res (List Bool) := do
  let bytes ← transcript g h n dummyGs
  let bound ← BN.lshift 1 reps
  let c ← Ctx.randomOracleSha512 H bytes bound
  bitsLoop reps.toNat c

/-- pedersen_over_zn.cc:241-248: the first messages; `ws` are the draws. -/
def dummies (h n : BigNum) (zk : Int) : List Nat → Res (List (BigNum × BigNum))
  | [] => .ok []
  | w :: ws => do
    let bound ← BN.lshift n (1 + zk)
    let r ← Ctx.randLessThan w bound
    let g ← BN.modExp h r n
    let rest ← dummies h n zk ws
    return (r, g) :: rest

/-- pedersen_over_zn.cc:209-271 `ProveParametersCorrectlyGenerated`; `draws i` is the draw of
repetition `i`. -/
def prove (H : Hashes) (g h n r : BigNum) (reps zk : Int) (draws : Nat → Nat) :
    Res ProofOfGen :=
  if reps ≤ 0 then .err .invalidArgument
  else if zk ≤ 0 then .err .invalidArgument
  else if BN.gcd h n ≠ 1 then .err .invalidArgument
  else do
    let hr ← BN.modExp h r n
    if g ≠ hr then .err .invalidArgument
    else do
      let ds ← dummies h n zk ((List.range reps.toNat).map draws)
      let cs ← genProofChallenge H g h n (ds.map Prod.snd) reps
      return ⟨reps, ds.map Prod.snd,
        List.zipWith (fun c (d : BigNum × BigNum) => if c then d.1 + r else d.1) cs ds⟩

/-- pedersen_over_zn.cc:304-307 `expected_output`. -/
def expected (g n : BigNum) (c : Bool) (d : BigNum) : Res BigNum :=
  if c then BN.modMul d g n else .ok d

/-- pedersen_over_zn.cc:303-314: the checks of one repetition after the other (indexing a
vector beyond its end would be undefined). -/
def verifyLoop (g h n : BigNum) : List Bool → List BigNum → List BigNum → Res Unit
  | c :: cs, d :: ds, s :: ss => do
    let e ← expected g n c d
    let hs ← BN.modExp h s n
    if hs ≠ e then .err .invalidArgument
    else verifyLoop g h n cs ds ss
  | [], [], [] => .ok ()
  | _, _, _ => .ub

/-- pedersen_over_zn.cc:273-317 `VerifyParamsProof`. -/
def verifyProof (H : Hashes) (g h n : BigNum) (p : ProofOfGen) : Res Unit :=
  if p.reps ≤ 0 then .err .invalidArgument
  else if (p.dummyGs.length : Int) ≠ p.reps then .err .invalidArgument
  else if (p.responses.length : Int) ≠ p.reps then .err .invalidArgument
  else if BN.gcd h n ≠ 1 then .err .invalidArgument
  else do
    let cs ← genProofChallenge H g h n p.dummyGs p.reps
    verifyLoop g h n cs p.dummyGs p.responses

/-- pedersen_over_zn.cc:319-330 `GetTrustedGenProofChallenge`. -/
def trustedChallenge (H : Hashes) (g h n dummyG : BigNum) (len : Int) : Res BigNum := do
  let bytes ← transcript g h n [dummyG]
  let bound ← BN.lshift 1 len
  Ctx.randomOracleSha512 H bytes bound

/-- pedersen_over_zn.cc:332-367 `ProveParametersCorrectlyGeneratedForTrustedModulus`; `w` is the
draw. -/
def proveTrusted (H : Hashes) (g h n r : BigNum) (len zk : Int) (w : Nat) : Res TrustedProof :=
  if len ≤ 0 then .err .invalidArgument
  else if zk ≤ 0 then .err .invalidArgument
  else if BN.gcd h n ≠ 1 then .err .invalidArgument
  else do
    let hr ← BN.modExp h r n
    if g ≠ hr then .err .invalidArgument
    else do
      let bound ← BN.lshift n (len + zk)
      let d ← Ctx.randLessThan w bound
      let dg ← BN.modExp h d n
      let c ← trustedChallenge H g h n dg len
      return ⟨len, dg, d + c * r⟩

/-- pedersen_over_zn.cc:369-397 `VerifyParamsProofForTrustedModulus`. -/
def verifyTrusted (H : Hashes) (g h n : BigNum) (p : TrustedProof) : Res Unit :=
  if p.challengeLength ≤ 0 then .err .invalidArgument
  else if BN.gcd h n ≠ 1 then .err .invalidArgument
  else do
    let c ← trustedChallenge H g h n p.dummyG p.challengeLength
    let lhs ← BN.modExp h p.response n
    let gc ← BN.modExp g c n
    let rhs ← BN.modMul gc p.dummyG n
    if lhs ≠ rhs then .err .invalidArgument else .ok ()

/-- pedersen_over_zn.cc:399-406 `ParametersToProto` (`rs` is not serialized). -/
def toProto (p : PedersenParams) : Res PedersenProto := do
  let n ← BN.toBytes p.n
  let gs ← bigNumVectorToProto p.gs
  let h ← BN.toBytes p.h
  return ⟨n, gs, h⟩

/-- pedersen_over_zn.cc:418, 425: the range check of a generator. -/
def badElement (x n : BigNum) : Bool := decide (x ≤ 0 ∨ n ≤ x ∨ BN.gcd x n ≠ 1)

/-- pedersen_over_zn.cc:408-432 `ParseParametersProto`. -/
def parseProto (p : PedersenProto) : Res PedersenParams :=
  let n := BN.ofBytes p.n
  if n ≤ 0 then .err .invalidArgument
  else
    let gs := parseBigNumVectorProto p.gs
    if gs.any (badElement · n) then .err .invalidArgument
    else
      let h := BN.ofBytes p.h
      if badElement h n then .err .invalidArgument
      else .ok ⟨gs, h, n, []⟩

/-- pedersen_over_zn.cc:65-73 `FromProto`. -/
def fromProto (p : PedersenProto) (numSimultaneous : Nat) : Res Pedersen := do
  let q ← parseProto p
  create q.gs q.h q.n numSimultaneous

/-- pedersen_over_zn.h:108-115, the loop of `SplitVector` from batch `i`, `k` batches left.
`int` overflow of `i * subvector_size` is undefined; so is an iterator beyond the end. -/
def splitLoop {α : Type} (input : List α) (sub : Nat) : Nat → Nat → Res (List (List α))
  | 0, _ => .ok []
  | k + 1, i =>
    if 2 ^ 31 ≤ i * sub ∨ input.length < i * sub then .ub
    else do
      let rest ← splitLoop input sub k (i + 1)
      return ((input.take (min input.length (i * sub + sub))).drop (i * sub)) :: rest

/-- pedersen_over_zn.h:101-117 `SplitVector` for a positive size.  (For a size of 0 the division
is undefined; negative sizes are not modelled.) -/
def splitVector {α : Type} (input : List α) (sub : Nat) : Res (List (List α)) :=
  if sub = 0 then .ub
  else splitLoop input sub ((input.length + sub - 1) / sub) 0

end Ped
end PJC
