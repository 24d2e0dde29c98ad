import Verif.Model.Ec
import Verif.Model.Pedersen
import Verif.Model.Wire
/-
Model of /repo/private_join_and_compute/crypto/dodis_yampolskiy_prf/dy_verifiable_random_function.{h,cc}
and of the point vectors of crypto/proto/proto_util.cc.  Random draws are arguments; SHA-512 is a
parameter; the objects passed by pointer (context, group, Pedersen parameters) are values.
-/
namespace PJC

/-- dy_verifiable_random_function.proto `DyVrfParameters`.  (The two sub-messages of
`pedersen_parameters` are taken to be present.) -/
structure VrfParams where
  /-- `int64 security_parameter` -/
  sec : Int
  /-- `int64 challenge_length_bits` -/
  chal : Int
  roPrefix : Bytes
  baseG : Bytes
  pedersen : PedersenProto

/-- dy_verifiable_random_function.h `DyVerifiableRandomFunction`, the members. -/
structure DyVrf (G : Type) where
  params : VrfParams
  group : EcGroup G
  base : G
  ped : Pedersen

/-- `DyVrfPrivateKey` (the proto). -/
structure VrfPrivateKey where
  key : Bytes
  opening : Bytes

/-- `DyVrfGenerateKeysProof` (the proto). -/
structure VrfKeyProof where
  challenge : Bytes
  maskedKey : Bytes
  maskedOpening : Bytes

/-- `DyVrfApplyProof` (the proto): message 1 and message 2. -/
structure VrfApplyProof where
  commitDummy : Bytes
  dummyGs : List Bytes
  masked : List Bytes
  maskedOpening : Bytes

variable {G : Type} [AddCommGroup G] [DecidableEq G]

/-- proto/proto_util.cc:53-64 `ECPointVectorToProto`. -/
def ecPointVectorToProto (E : EcGroup G) (v : List G) : Res (List Bytes) :=
  v.mapM E.toBytesCompressed

/-- proto/proto_util.cc:67-78 `ParseECPointVectorProto`. -/
def parseECPointVectorProto (E : EcGroup G) (v : List Bytes) : Res (List G) :=
  v.mapM E.createECPoint

/-- `int64` arithmetic: a value out of range is signed overflow. -/
def int64 (x : Int) : Res Int := if -2 ^ 63 ≤ x ∧ x < 2 ^ 63 then .ok x else .ub

/-- big_num.h:173 `Lshift(int n)` called with an `int64`, which is converted to `int`
(modulo 2^32). -/
def lshift64 (a : BigNum) (k : Int) : Res BigNum := do
  let k ← int64 k
  BN.lshift a ((k + 2 ^ 31) % 2 ^ 32 - 2 ^ 31)

/-- pedersen.proto `PedersenParameters` as fields. -/
def PedersenProto.fields (p : PedersenProto) : List Wire.Field :=
  Wire.bytesField 1 p.n ++ Wire.msgField 2 (Wire.bigNumVector p.gs) ++ Wire.bytesField 3 p.h

/-- dy_verifiable_random_function.proto `DyVrfParameters` as fields. -/
def VrfParams.fields (p : VrfParams) : List Wire.Field :=
  Wire.int64Field 1 p.sec ++ Wire.int64Field 2 p.chal ++ Wire.bytesField 3 p.roPrefix ++
    Wire.bytesField 4 p.baseG ++ Wire.msgField 5 p.pedersen.fields

/-- dy_verifiable_random_function.proto `DyVrfPublicKey` as fields. -/
def vrfPublicKeyFields (pk : Bytes) : List Wire.Field := Wire.bytesField 1 pk

namespace Vrf

/-- dy_verifiable_random_function.cc:36-56 `Create`. -/
def create (params : VrfParams) (E : EcGroup G) (ped : Pedersen) : Res (DyVrf G) :=
  if params.sec ≤ 0 then .err .invalidArgument
  else if params.chal ≤ 0 then .err .invalidArgument
  else do
    let g ← E.createECPoint params.baseG
    return ⟨params, E, g, ped⟩

/-- dy_verifiable_random_function.cc:223. -/
def keyLabel : Bytes := str "DyVerifiableRandomFunction::GenerateChallengeForGenerateKeysProof"

/-- dy_verifiable_random_function.cc:547. -/
def applyLabel : Bytes := str "DyVerifiableRandomFunction::GenerateApplyProofChallenge"

/-- `DyVrfGenerateKeysProof::Statement` (dy_verifiable_random_function.cc:117-119). -/
def keyStatement (params : VrfParams) (pk : Bytes) : List Wire.Field :=
  Wire.msgField 1 params.fields ++ Wire.msgField 2 (vrfPublicKeyFields pk)

/-- `DyVrfGenerateKeysProof::Message1` (dy_verifiable_random_function.cc:121-122). -/
def keyMessage1 (dummyCommit : Bytes) : List Wire.Field := Wire.bytesField 1 dummyCommit

/-- dy_verifiable_random_function.cc:222-235: what is hashed for the key proof. -/
def keyTranscript (params : VrfParams) (pk dummyCommit : Bytes) : Bytes :=
  Wire.transcript keyLabel (keyStatement params pk) (keyMessage1 dummyCommit)

/-- dy_verifiable_random_function.cc:215-245 `GenerateChallengeForGenerateKeysProof`. -/
def keyChallenge (H : Hashes) (v : DyVrf G) (pk dummyCommit : Bytes) : Res BigNum := do
  let bound ← lshift64 1 v.params.chal
  Ctx.randomOracleSha512 H (keyTranscript v.params pk dummyCommit) bound

/-- The draws of `GenerateKeyPair`, in order. -/
structure KeyDraws where
  key : Nat
  opening : Nat
  dummyKey : Nat
  dummyOpening : Nat

/-- dy_verifiable_random_function.cc:58-144 `GenerateKeyPair`: public key, private key, proof. -/
def generateKeyPair (H : Hashes) (v : DyVrf G) (d : KeyDraws) :
    Res (Bytes × VrfPrivateKey × VrfKeyProof) := do
  let key ← v.group.generatePrivateKey d.key
  let co ← Ped.commit v.ped (List.replicate v.ped.gs.length key) d.opening
  let pk ← BN.toBytes co.1
  let skKey ← BN.toBytes key
  let skOpening ← BN.toBytes co.2
  let keyBound ← lshift64 v.group.order (v.params.chal + v.params.sec)
  let openingBound ← lshift64 v.ped.n (v.params.chal + v.params.sec)
  let dummyKey ← Ctx.randLessThan d.dummyKey keyBound
  let dummyOpening ← Ctx.randLessThan d.dummyOpening openingBound
  let dummyCommit ← Ped.commitWithRand v.ped (List.replicate v.ped.gs.length dummyKey) dummyOpening
  let dummyBytes ← BN.toBytes dummyCommit
  let c ← keyChallenge H v pk dummyBytes
  let challenge ← BN.toBytes c
  let maskedKey ← BN.toBytes (dummyKey + key * c)
  let maskedOpening ← BN.toBytes (dummyOpening + co.2 * c)
  return (pk, ⟨skKey, skOpening⟩, ⟨challenge, maskedKey, maskedOpening⟩)

/-- dy_verifiable_random_function.cc:173-185: the first message of the key proof, recomputed. -/
def keyDummyCommit (v : DyVrf G) (pk : Bytes) (p : VrfKeyProof) : Res BigNum := do
  let masked ← Ped.commitWithRand v.ped
    (List.replicate v.ped.gs.length (BN.ofBytes p.maskedKey)) (BN.ofBytes p.maskedOpening)
  let power ← Ped.multiply v.ped (BN.ofBytes pk) (BN.ofBytes p.challenge)
  let inverse ← BN.modInverse power v.ped.n
  Ped.add v.ped inverse masked

/-- dy_verifiable_random_function.cc:148-211 `VerifyGenerateKeysProof`. -/
def verifyKeyProof (H : Hashes) (v : DyVrf G) (pk : Bytes) (p : VrfKeyProof) : Res Unit := do
  let keyBound ← lshift64 v.group.order (v.params.chal + v.params.sec + 1)
  if BN.ofBytes p.maskedKey > keyBound then .err .invalidArgument
  else do
    let dummyCommit ← keyDummyCommit v pk p
    let dummyBytes ← BN.toBytes dummyCommit
    let c ← keyChallenge H v pk dummyBytes
    if c ≠ BN.ofBytes p.challenge then .err .invalidArgument else .ok ()

/-- dy_verifiable_random_function.cc:258-266, one iteration of `Apply`. -/
def applyOne (v : DyVrf G) (key m : BigNum) : Res G := do
  let inverse ← BN.modInverse (m + key) v.group.order
  return inverse • v.base

/-- dy_verifiable_random_function.cc:248-269 `Apply`. -/
def apply (v : DyVrf G) (ms : List BigNum) (sk : VrfPrivateKey) : Res (List G) :=
  ms.mapM (applyOne v (BN.ofBytes sk.key))

/-- `DyVrfApplyProof::Statement` (dy_verifiable_random_function.cc:536-541). -/
def applyStatement (params : VrfParams) (pk commitMessages : Bytes) (evals : List Bytes) :
    List Wire.Field :=
  Wire.msgField 1 params.fields ++ Wire.msgField 2 (vrfPublicKeyFields pk) ++
    Wire.bytesField 3 commitMessages ++ Wire.msgField 4 (Wire.ecPointVector evals)

/-- `DyVrfApplyProof::Message1` (dy_verifiable_random_function.cc:585-594). -/
def applyMessage1 (commitDummy : Bytes) (dummyGs : List Bytes) : List Wire.Field :=
  Wire.bytesField 1 commitDummy ++ Wire.msgField 2 (Wire.ecPointVector dummyGs)

/-- dy_verifiable_random_function.cc:546-559: what is hashed for an evaluation proof. -/
def applyTranscript (params : VrfParams) (pk commitMessages : Bytes) (evals : List Bytes)
    (commitDummy : Bytes) (dummyGs : List Bytes) : Bytes :=
  Wire.transcript applyLabel (applyStatement params pk commitMessages evals)
    (applyMessage1 commitDummy dummyGs)

/-- dy_verifiable_random_function.cc:530-569 `GenerateApplyProofChallenge`. -/
def applyChallenge (H : Hashes) (v : DyVrf G) (evals : List G) (pk : Bytes)
    (commitMessages : BigNum) (commitDummy : Bytes) (dummyGs : List Bytes) : Res BigNum := do
  let cm ← BN.toBytes commitMessages
  let es ← ecPointVectorToProto v.group evals
  let bound ← lshift64 1 v.params.chal
  Ctx.randomOracleSha512 H (applyTranscript v.params pk cm es commitDummy dummyGs) bound

/-- The draws of `GenerateApplyProof`, in order: the key's, one per message, the opening's. -/
structure ApplyDraws where
  key : Nat
  message : Nat → Nat
  opening : Nat

/-- dy_verifiable_random_function.cc:299-308, one iteration. -/
def dummyAt (bound dummyKey : BigNum) (numMessages : Nat) (draw : Nat → Nat) (i : Nat) :
    Res BigNum :=
  if i < numMessages then do
    let r ← Ctx.randLessThan (draw i) bound
    return r + dummyKey
  else .ok dummyKey

/-- dy_verifiable_random_function.cc:321-322: an index beyond a vector is undefined. -/
def dummyG (evals : List G) (dummies : List BigNum) (i : Nat) : Res G :=
  match evals[i]?, dummies[i]? with
  | some e, some d => .ok (d • e)
  | _, _ => .ub

/-- dy_verifiable_random_function.cc:275-337 `GenerateApplyProofMessage1`: the dummy commitment,
the dummy points, the dummy values, the dummy key and the dummy opening. -/
def applyProofMessage1 (v : DyVrf G) (ms : List BigNum) (evals : List G) (d : ApplyDraws) :
    Res (BigNum × List G × List BigNum × BigNum × BigNum) := do
  let messageBound ← lshift64 v.group.order (v.params.sec + v.params.chal)
  let openingBound ← lshift64 v.ped.n (v.params.sec + v.params.chal)
  let dummyKey ← Ctx.randLessThan d.key messageBound
  let dummies ← (List.range v.ped.gs.length).mapM (dummyAt messageBound dummyKey ms.length d.message)
  let dummyOpening ← Ctx.randLessThan d.opening openingBound
  let commitDummy ← Ped.commitWithRand v.ped dummies dummyOpening
  let gs ← (List.range ms.length).mapM (dummyG evals dummies)
  return (commitDummy, gs, dummies, dummyKey, dummyOpening)

/-- dy_verifiable_random_function.cc:361-369, one iteration; an index beyond a vector is
undefined. -/
def maskedAt (ms dummies : List BigNum) (key dummyKey c : BigNum) (i : Nat) : Res BigNum :=
  match ms[i]?, dummies[i]? with
  | some m, some d => .ok (d + (m + key) * c)
  | some _, none => .ub
  | none, _ => .ok (dummyKey + key * c)

/-- dy_verifiable_random_function.cc:377-420 `GenerateApplyProof`, with 341-375
`GenerateApplyProofMessage2`; `opening` is the opening of the commitment to the messages. -/
def generateApplyProof (H : Hashes) (v : DyVrf G) (ms : List BigNum) (evals : List G) (pk : Bytes)
    (sk : VrfPrivateKey) (commitMessages opening : BigNum) (d : ApplyDraws) :
    Res VrfApplyProof := do
  let (commitDummy, gs, dummies, dummyKey, dummyOpening) ← applyProofMessage1 v ms evals d
  let cd ← BN.toBytes commitDummy
  let gsBytes ← ecPointVectorToProto v.group gs
  let c ← applyChallenge H v evals pk commitMessages cd gsBytes
  let masked ← (List.range v.ped.gs.length).mapM
    (maskedAt ms dummies (BN.ofBytes sk.key) dummyKey c)
  let maskedBytes ← bigNumVectorToProto masked
  let mo ← BN.toBytes (dummyOpening + (BN.ofBytes sk.opening + opening) * c)
  return ⟨cd, gsBytes, maskedBytes, mo⟩

/-- dy_verifiable_random_function.cc:473-483: the bit lengths of the masked values.  (The sum on
the right is an `int64`; both parameters went through `Create`.) -/
def tooLong (v : DyVrf G) (x : BigNum) : Bool :=
  decide ((BN.bitLength x : Int) > BN.bitLength v.group.order + v.params.chal + v.params.sec + 2)

/-- dy_verifiable_random_function.cc:488-506: one evaluation after the other (an index beyond a
vector would be undefined). -/
def checkLoop (gc : G) : List G → List BigNum → List G → Res Unit
  | e :: es, z :: zs, d :: ds =>
    if z • e ≠ d + gc then .err .invalidArgument else checkLoop gc es zs ds
  | [], _, _ => .ok ()
  | _, _, _ => .ub

/-- dy_verifiable_random_function.cc:424-528 `VerifyApplyProof`. -/
def verifyApplyProof (H : Hashes) (v : DyVrf G) (evals : List G) (pk : Bytes)
    (commitMessages : BigNum) (p : VrfApplyProof) : Res Unit := do
  let ds ← parseECPointVectorProto v.group p.dummyGs
  let masked := parseBigNumVectorProto p.masked
  if evals.length > v.ped.gs.length then .err .invalidArgument
  else if evals.length ≠ ds.length then .err .invalidArgument
  else if v.ped.gs.length ≠ masked.length then .err .invalidArgument
  else do
    let c ← applyChallenge H v evals pk commitMessages p.commitDummy p.dummyGs
    if masked.any (tooLong v) then .err .invalidArgument
    else do
      checkLoop (c • v.base) evals masked ds
      let sum ← Ped.add v.ped commitMessages (BN.ofBytes pk)
      let power ← Ped.multiply v.ped sum c
      let lhs ← Ped.commitWithRand v.ped masked (BN.ofBytes p.maskedOpening)
      let rhs ← Ped.add v.ped (BN.ofBytes p.commitDummy) power
      if lhs ≠ rhs then .err .invalidArgument else .ok ()

end Vrf
end PJC
