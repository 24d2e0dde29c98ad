import Verif.Model.DyVrf
/-
Model of
/repo/private_join_and_compute/crypto/dodis_yampolskiy_prf/bb_oblivious_signature.{h,cc}.
Random draws are arguments (one function from the loop index per vector; the interleaving of the
draws inside one loop is not distinguished); SHA-512 is a parameter; the objects passed by pointer
(context, group, encryption and commitment schemes) are values.  Sub-messages of the protos are
taken to be present.
-/
namespace PJC

/-- bb_oblivious_signature.proto `BbObliviousSignatureParameters`. -/
structure BbParams where
  /-- `int64 security_parameter` -/
  sec : Int
  /-- `int64 challenge_length_bits` -/
  chal : Int
  roPrefix : Bytes
  baseG : Bytes
  cs : CsPublicKeyProto
  pedersen : PedersenProto

/-- bb_oblivious_signature.h `BbObliviousSignature`, the members. -/
structure BbSig (G : Type) where
  params : BbParams
  group : EcGroup G
  base : G
  cs : CsPublic
  ped : Pedersen

/-- `BbObliviousSignaturePublicKey`. -/
structure BbPublicKey where
  encK : List CsCtProto
  encY : List CsCtProto

/-- `BbObliviousSignaturePrivateKey`. -/
structure BbPrivateKey where
  k : Bytes
  y : Bytes

/-- `BbObliviousSignatureRequest`. -/
structure BbRequest where
  /-- `uint64 num_messages` -/
  num : Nat
  cts : List CsCtProto

/-- `BbObliviousSignatureRequestProof::Message1`. -/
structure BbReqMessage1 where
  messages : Bytes
  rs : Bytes
  as : List Bytes
  bs : Bytes
  alphas1 : Bytes
  alphas2 : Bytes
  gammas1 : Bytes
  gammas2 : Bytes
  cts : List CsCtProto

/-- `BbObliviousSignatureRequestProof::Message2`. -/
structure BbReqMessage2 where
  messages : List Bytes
  messagesOpen : Bytes
  rs : List Bytes
  rsOpen : Bytes
  as : List Bytes
  asOpen : List Bytes
  bs : List Bytes
  bsOpen : Bytes
  alphas : List Bytes
  alphasOpen1 : Bytes
  alphasOpen2 : Bytes
  gammas : List Bytes
  gammasOpen1 : Bytes
  gammasOpen2 : Bytes
  enc : List Bytes

/-- `BbObliviousSignatureRequestProof`. -/
structure BbReqProof where
  commitAs : List Bytes
  commitBs : Bytes
  commitAlphas : Bytes
  commitGammas : Bytes
  challenge : Bytes
  message2 : BbReqMessage2

/-- `BbObliviousSignatureResponseProof::Message1`. -/
structure BbRespMessage1 where
  ys : List Bytes
  commitBetas : Bytes
  baseGs : List Bytes
  es : List (List Bytes)

/-- `BbObliviousSignatureResponseProof` with its `Message2`.  (`BbObliviousSignatureResponse` is
the list of encoded points, `BbObliviousSignatureRequestPrivateState` the list of encoded masks.) -/
structure BbRespProof where
  commitBetas : Bytes
  challenge : Bytes
  xs : List Bytes
  betas : List Bytes
  opening : Bytes

/-- proto/camenisch_shoup.proto `CamenischShoupPublicKey` as fields. -/
def CsPublicKeyProto.fields (p : CsPublicKeyProto) : List Wire.Field :=
  Wire.bytesField 1 p.n ++ Wire.bytesField 2 p.g ++ Wire.msgField 3 (Wire.bigNumVector p.ys) ++
    Wire.uint64Field 4 p.s

/-- proto/camenisch_shoup.proto `CamenischShoupCiphertext` as fields. -/
def CsCtProto.fields (p : CsCtProto) : List Wire.Field :=
  Wire.bytesField 1 p.u ++ Wire.msgField 2 (Wire.bigNumVector p.es)

/-- `BbObliviousSignatureParameters` as fields. -/
def BbParams.fields (p : BbParams) : List Wire.Field :=
  Wire.int64Field 1 p.sec ++ Wire.int64Field 2 p.chal ++ Wire.bytesField 3 p.roPrefix ++
    Wire.bytesField 4 p.baseG ++ Wire.msgField 5 p.cs.fields ++ Wire.msgField 6 p.pedersen.fields

/-- `BbObliviousSignaturePublicKey` as fields. -/
def BbPublicKey.fields (p : BbPublicKey) : List Wire.Field :=
  Wire.repMsg 1 (p.encK.map CsCtProto.fields) ++ Wire.repMsg 2 (p.encY.map CsCtProto.fields)

/-- `BbObliviousSignatureRequest` as fields. -/
def BbRequest.fields (p : BbRequest) : List Wire.Field :=
  Wire.uint64Field 1 p.num ++ Wire.repMsg 3 (p.cts.map CsCtProto.fields)

/-- `BbObliviousSignatureRequestProof::Message1` as fields. -/
def BbReqMessage1.fields (p : BbReqMessage1) : List Wire.Field :=
  Wire.bytesField 1 p.messages ++ Wire.bytesField 2 p.rs ++
    Wire.msgField 3 (Wire.bigNumVector p.as) ++ Wire.bytesField 4 p.bs ++
    Wire.bytesField 5 p.alphas1 ++ Wire.bytesField 6 p.alphas2 ++ Wire.bytesField 7 p.gammas1 ++
    Wire.bytesField 8 p.gammas2 ++ Wire.repMsg 10 (p.cts.map CsCtProto.fields)

/-- `BbObliviousSignatureResponseProof::Message1` as fields. -/
def BbRespMessage1.fields (p : BbRespMessage1) : List Wire.Field :=
  Wire.msgField 1 (Wire.bigNumVector p.ys) ++ Wire.bytesField 2 p.commitBetas ++
    Wire.msgField 4 (Wire.ecPointVector p.baseGs) ++ Wire.repMsg 5 (p.es.map Wire.bigNumVector)

namespace Bb

/-- `v[i]` on a `std::vector` or a repeated proto field: an index out of range is undefined. -/
def idx {α : Type} (l : List α) (i : Nat) : Res α :=
  match l[i]? with
  | some a => .ok a
  | none => .ub

/-- bb_oblivious_signature.cc:64-67, 295-298, 735-738: the number of ciphertexts. -/
def numCts (n len : Nat) : Nat := (n + len - 1) / len

/-- bb_oblivious_signature.cc:91-101, one iteration: add `a * k` and `gamma * y` in slot `j`. -/
def homStep (pk : CsPublic) (as gammas : List BigNum) (ks ys : List CsCt) (start : Nat) (ct : CsCt)
    (j : Nat) : Res CsCt := do
  let kj ← idx ks j
  let a ← idx as (start + j)
  let ka ← Cs.multiply pk kj a
  let ct ← Cs.add pk ct ka
  let yj ← idx ys j
  let gamma ← idx gammas (start + j)
  let yg ← Cs.multiply pk yj gamma
  Cs.add pk ct yg

/-- bb_oblivious_signature.cc:72-104, one iteration: ciphertext `i`. -/
def homCt (pk : CsPublic) (ms as gammas rands : List BigNum) (ks ys : List CsCt) (i : Nat) :
    Res CsCt := do
  let start := i * pk.len
  let size := min pk.len (ms.length - start)
  let r ← idx rands i
  let ct ← Cs.encryptWithRand pk ((ms.drop start).take size) r
  (List.range size).foldlM (homStep pk as gammas ks ys start) ct

/-- bb_oblivious_signature.cc:53-106 `GenerateHomomorphicCsCiphertexts`; dividing by a vector
length of 0 is undefined. -/
def homCts (pk : CsPublic) (ms as gammas rands : List BigNum) (ks ys : List CsCt) :
    Res (List CsCt) :=
  if pk.len = 0 then .ub
  else (List.range (numCts ms.length pk.len)).mapM (homCt pk ms as gammas rands ks ys)

variable {G : Type} [AddCommGroup G] [DecidableEq G]

/-- bb_oblivious_signature.cc:143-149, 1162-1168, 1355-1358: `2^bits * q^3`. -/
def betasBound (E : EcGroup G) (bits : Int) : Res BigNum := do
  let b ← lshift64 1 bits
  return b * E.order * E.order * E.order

/-- bb_oblivious_signature.cc:110-176 `Create` (the null checks are not modelled). -/
def create (params : BbParams) (E : EcGroup G) (cs : CsPublic) (ped : Pedersen) :
    Res (BbSig G) :=
  if params.sec ≤ 0 then .err .invalidArgument
  else if params.chal ≤ 0 then .err .invalidArgument
  else do
    let bound ← betasBound E (2 * params.chal + 2 * params.sec + 1)
    if bound > cs.nToS then .err .invalidArgument
    else if bound > ped.n then .err .invalidArgument
    else do
      let g ← E.createECPoint params.baseG
      return ⟨params, E, g, cs, ped⟩

/-- The vector of length `n` with `x` in slot `i` and 0 elsewhere (bb_oblivious_signature.cc:
198-201, 330-332, 481-482, 908-909; `i` is below `n` at every use). -/
def slot (n i : Nat) (x : BigNum) : List BigNum := (List.replicate n 0).set i x

/-- bb_oblivious_signature.cc:196-212, one iteration: `k` and `y` encrypted in slot `i`. -/
def encryptKeyAt (cs : CsPublic) (k y : BigNum) (drawK drawY : Nat → BigNum) (i : Nat) :
    Res (CsCtProto × CsCtProto) := do
  let kc ← Cs.encrypt cs (slot cs.len i k) (drawK i)
  let kp ← Cs.ciphertextToProto kc
  let yc ← Cs.encrypt cs (slot cs.len i y) (drawY i)
  let yp ← Cs.ciphertextToProto yc
  return (kp, yp)

/-- bb_oblivious_signature.cc:178-216 `GenerateKeys`; `drawK`, `drawY` are the draws of
`RelativelyPrimeRandomLessThan(n)` inside `Encrypt`. -/
def generateKeys (v : BbSig G) (wk wy : Nat) (drawK drawY : Nat → BigNum) :
    Res (BbPublicKey × BbPrivateKey) := do
  let k ← v.group.generatePrivateKey wk
  let y ← v.group.generatePrivateKey wy
  let bk ← BN.toBytes k
  let bY ← BN.toBytes y
  let cts ← (List.range v.cs.len).mapM (encryptKeyAt v.cs k y drawK drawY)
  return (⟨cts.map Prod.fst, cts.map Prod.snd⟩, ⟨bk, bY⟩)

/-- bb_oblivious_signature.cc:281-289 and 959-967, one iteration. -/
def parseKeyAt (cs : CsPublic) (pk : BbPublicKey) (i : Nat) : Res (CsCt × CsCt) := do
  let kp ← idx pk.encK i
  let k ← Cs.parseCiphertextProto cs kp
  let yp ← idx pk.encY i
  let y ← Cs.parseCiphertextProto cs yp
  return (k, y)

/-- bb_oblivious_signature.cc:271-290 and 950-968: the ciphertexts of the public key. -/
def parseKeys (cs : CsPublic) (pk : BbPublicKey) : Res (List CsCt × List CsCt) := do
  let l ← (List.range cs.len).mapM (parseKeyAt cs pk)
  return (l.map Prod.fst, l.map Prod.snd)

/-- The exponents of the request proof: the secret ones, the dummy ones and the masked ones all
have this shape. -/
structure Witness where
  messages : List BigNum
  rs : List BigNum
  as : List BigNum
  asOpen : List BigNum
  bs : List BigNum
  alphas : List BigNum
  gammas : List BigNum
  enc : List BigNum
  messagesOpen : BigNum
  rsOpen : BigNum
  bsOpen : BigNum
  alphasOpen1 : BigNum
  alphasOpen2 : BigNum
  gammasOpen1 : BigNum
  gammasOpen2 : BigNum

/-- The commitments and ciphertexts of the first message of the request proof. -/
structure Composites where
  messages : BigNum
  rs : BigNum
  as : List BigNum
  bs : BigNum
  alphas1 : BigNum
  alphas2 : BigNum
  gammas1 : BigNum
  gammas2 : BigNum
  cts : List CsCt

/-- bb_oblivious_signature.cc:481-486 and 908-913, one iteration. -/
def commitAt (ped : Pedersen) (as opens : List BigNum) (i : Nat) : Res BigNum := do
  let a ← idx as i
  let o ← idx opens i
  Ped.commitWithRand ped (slot ped.gs.length i a) o

/-- bb_oblivious_signature.cc:391-395, 503-509 and 933-940: `acc * prod Cs[i]^es[i]`.  (The vectors
have equal sizes at every use; `Add` is symmetric, so the order of its arguments, which differs
between these places, is not distinguished.) -/
def accumulate (ped : Pedersen) (acc : BigNum) (cs es : List BigNum) : Res BigNum :=
  (cs.zip es).foldlM (fun acc x => do
    let p ← Ped.multiply ped x.1 x.2
    Ped.add ped acc p) acc

/-- bb_oblivious_signature.cc:474-509 (dummy values, `i` below the number of messages) and 896-940
(masked dummy values, `i` below the number of `commit_as`): the commitments. -/
def commitments (ped : Pedersen) (commitAs : List BigNum) (w : Witness) :
    Res (BigNum × BigNum × List BigNum × BigNum × BigNum × BigNum × BigNum × BigNum) := do
  let messages ← Ped.commitWithRand ped w.messages w.messagesOpen
  let rs ← Ped.commitWithRand ped w.rs w.rsOpen
  let as ← (List.range commitAs.length).mapM (commitAt ped w.as w.asOpen)
  let bs ← Ped.commitWithRand ped w.bs w.bsOpen
  let alphas1 ← Ped.commitWithRand ped w.alphas w.alphasOpen1
  let gammas1 ← Ped.commitWithRand ped w.gammas w.gammasOpen1
  let zeros := List.replicate ped.gs.length 0
  let alphas2 ← Ped.commitWithRand ped zeros w.alphasOpen2
  let gammas2 ← Ped.commitWithRand ped zeros w.gammasOpen2
  let alphas2 ← accumulate ped alphas2 commitAs w.messages
  let gammas2 ← accumulate ped gammas2 commitAs w.rs
  return (messages, rs, as, bs, alphas1, alphas2, gammas1, gammas2)

/-- bb_oblivious_signature.cc:267-268, 451-452, 943-948: `alpha + b * q`. -/
def maskedMessages (q : BigNum) (w : Witness) : List BigNum :=
  List.zipWith (fun alpha b => alpha + b * q) w.alphas w.bs

/-- bb_oblivious_signature.cc:512-517 and 971-977. -/
def ciphertexts (v : BbSig G) (ks ys : List CsCt) (w : Witness) : Res (List CsCt) :=
  homCts v.cs (maskedMessages v.group.order w) w.as w.gammas w.enc ks ys

/-- bb_oblivious_signature.cc:533-546 and 1029-1037, 1070-1071: the first message, serialized. -/
def Composites.toProto (c : Composites) : Res BbReqMessage1 := do
  let messages ← BN.toBytes c.messages
  let rs ← BN.toBytes c.rs
  let as ← bigNumVectorToProto c.as
  let bs ← BN.toBytes c.bs
  let alphas1 ← BN.toBytes c.alphas1
  let alphas2 ← BN.toBytes c.alphas2
  let gammas1 ← BN.toBytes c.gammas1
  let gammas2 ← BN.toBytes c.gammas2
  let cts ← c.cts.mapM Cs.ciphertextToProto
  return ⟨messages, rs, as, bs, alphas1, alphas2, gammas1, gammas2, cts⟩

/-- bb_oblivious_signature.cc:567-597: `dummy + challenge * value`, for every exponent. -/
def Witness.mask (c : BigNum) (d w : Witness) : Witness :=
  let f := List.zipWith (fun d x => d + c * x)
  { messages := f d.messages w.messages
    rs := f d.rs w.rs
    as := f d.as w.as
    asOpen := f d.asOpen w.asOpen
    bs := f d.bs w.bs
    alphas := f d.alphas w.alphas
    gammas := f d.gammas w.gammas
    enc := f d.enc w.enc
    messagesOpen := d.messagesOpen + c * w.messagesOpen
    rsOpen := d.rsOpen + c * w.rsOpen
    bsOpen := d.bsOpen + c * w.bsOpen
    alphasOpen1 := d.alphasOpen1 + c * w.alphasOpen1
    alphasOpen2 := d.alphasOpen2 + c * w.alphasOpen2
    gammasOpen1 := d.gammasOpen1 + c * w.gammasOpen1
    gammasOpen2 := d.gammasOpen2 + c * w.gammasOpen2 }

/-- bb_oblivious_signature.cc:607-639: the second message, serialized. -/
def Witness.toProto (w : Witness) : Res BbReqMessage2 := do
  let messages ← bigNumVectorToProto w.messages
  let messagesOpen ← BN.toBytes w.messagesOpen
  let rs ← bigNumVectorToProto w.rs
  let rsOpen ← BN.toBytes w.rsOpen
  let as ← bigNumVectorToProto w.as
  let asOpen ← bigNumVectorToProto w.asOpen
  let bs ← bigNumVectorToProto w.bs
  let bsOpen ← BN.toBytes w.bsOpen
  let alphas ← bigNumVectorToProto w.alphas
  let alphasOpen1 ← BN.toBytes w.alphasOpen1
  let alphasOpen2 ← BN.toBytes w.alphasOpen2
  let gammas ← bigNumVectorToProto w.gammas
  let gammasOpen1 ← BN.toBytes w.gammasOpen1
  let gammasOpen2 ← BN.toBytes w.gammasOpen2
  let enc ← bigNumVectorToProto w.enc
  return ⟨messages, messagesOpen, rs, rsOpen, as, asOpen, bs, bsOpen, alphas, alphasOpen1,
    alphasOpen2, gammas, gammasOpen1, gammasOpen2, enc⟩

end Bb

/-- bb_oblivious_signature.cc:796-827: the second message, parsed. -/
def BbReqMessage2.parse (m : BbReqMessage2) : Bb.Witness :=
  { messages := parseBigNumVectorProto m.messages
    rs := parseBigNumVectorProto m.rs
    as := parseBigNumVectorProto m.as
    asOpen := parseBigNumVectorProto m.asOpen
    bs := parseBigNumVectorProto m.bs
    alphas := parseBigNumVectorProto m.alphas
    gammas := parseBigNumVectorProto m.gammas
    enc := parseBigNumVectorProto m.enc
    messagesOpen := BN.ofBytes m.messagesOpen
    rsOpen := BN.ofBytes m.rsOpen
    bsOpen := BN.ofBytes m.bsOpen
    alphasOpen1 := BN.ofBytes m.alphasOpen1
    alphasOpen2 := BN.ofBytes m.alphasOpen2
    gammasOpen1 := BN.ofBytes m.gammasOpen1
    gammasOpen2 := BN.ofBytes m.gammasOpen2 }

namespace Bb
variable {G : Type} [AddCommGroup G] [DecidableEq G]

/-- bb_oblivious_signature.cc:1517-1518: the label of the request challenge. -/
def requestLabel : Bytes := str "BbObliviousSignature::GenerateResponseProofChallenge"

/-- bb_oblivious_signature.cc:1567-1568: the label of the response challenge. -/
def responseLabel : Bytes := str "BbObliviousSignature::GenerateResponseProofChallenge"

/-- The fields of `BbObliviousSignatureRequestProof::Statement`. -/
structure ReqStatement where
  params : BbParams
  publicKey : BbPublicKey
  commitMessages : Bytes
  commitRs : Bytes
  commitAs : List Bytes
  commitBs : Bytes
  commitAlphas : Bytes
  commitGammas : Bytes
  request : BbRequest

/-- `BbObliviousSignatureRequestProof::Statement` as fields
(bb_oblivious_signature.cc:521-531, 761-770). -/
def ReqStatement.fields (s : ReqStatement) : List Wire.Field :=
  Wire.msgField 1 s.params.fields ++ Wire.msgField 2 s.publicKey.fields ++
    Wire.bytesField 3 s.commitMessages ++ Wire.bytesField 4 s.commitRs ++
    Wire.msgField 5 (Wire.bigNumVector s.commitAs) ++ Wire.bytesField 6 s.commitBs ++
    Wire.bytesField 7 s.commitAlphas ++ Wire.bytesField 8 s.commitGammas ++
    Wire.msgField 9 s.request.fields

/-- bb_oblivious_signature.cc:1514-1531: what is hashed for a request proof. -/
def requestTranscript (s : ReqStatement) (m : BbReqMessage1) : Bytes :=
  Wire.transcript requestLabel s.fields m.fields

/-- bb_oblivious_signature.cc:1508-1539 `GenerateRequestProofChallenge`. -/
def requestChallenge (H : Hashes) (v : BbSig G) (s : ReqStatement) (m : BbReqMessage1) :
    Res BigNum := do
  let bound ← lshift64 1 v.params.chal
  Ctx.randomOracleSha512 H (requestTranscript s m) bound

/-- `n` draws below `bound`. -/
def drawList (n : Nat) (bound : BigNum) (draw : Nat → Nat) : Res (List BigNum) :=
  (List.range n).mapM (fun i => Ctx.randLessThan (draw i) bound)

/-- The draws of `GenerateRequestAndProof`. -/
structure ReqDraws where
  a : Nat → Nat
  b : Nat → Nat
  enc : Nat → Nat
  openA : Nat → Nat
  openB : Nat
  openAlphas : Nat
  openGammas : Nat
  messages : Nat → Nat
  rs : Nat → Nat
  as : Nat → Nat
  asOpen : Nat → Nat
  bs : Nat → Nat
  alphas : Nat → Nat
  gammas : Nat → Nat
  messagesOpen : Nat
  rsOpen : Nat
  bsOpen : Nat
  alphasOpen1 : Nat
  alphasOpen2 : Nat
  gammasOpen1 : Nat
  gammasOpen2 : Nat
  dummyEnc : Nat → Nat

/-- bb_oblivious_signature.cc:401-471: the dummy exponents for `n` messages. -/
def dummyWitness (v : BbSig G) (n : Nat) (d : ReqDraws) : Res Witness := do
  let t := v.params.chal + v.params.sec
  let q : BigNum := v.group.order
  let bsBound0 ← lshift64 (q * q) t
  let messagesBound ← lshift64 q t
  let bsBound ← lshift64 bsBound0 t
  let alphasBound := messagesBound * q
  let openBound ← lshift64 v.ped.n t
  let homBound := openBound * q * (n + 1 : Nat)
  let encBound ← lshift64 v.cs.n t
  let messages ← drawList n messagesBound d.messages
  let rs ← drawList n messagesBound d.rs
  let as ← drawList n messagesBound d.as
  let asOpen ← drawList n openBound d.asOpen
  let bs ← drawList n bsBound d.bs
  let alphas ← drawList n alphasBound d.alphas
  let gammas ← drawList n alphasBound d.gammas
  let messagesOpen ← Ctx.randLessThan d.messagesOpen openBound
  let rsOpen ← Ctx.randLessThan d.rsOpen openBound
  let bsOpen ← Ctx.randLessThan d.bsOpen openBound
  let alphasOpen1 ← Ctx.randLessThan d.alphasOpen1 homBound
  let alphasOpen2 ← Ctx.randLessThan d.alphasOpen2 openBound
  let gammasOpen1 ← Ctx.randLessThan d.gammasOpen1 homBound
  let gammasOpen2 ← Ctx.randLessThan d.gammasOpen2 openBound
  let enc ← drawList (numCts n v.cs.len) encBound d.dummyEnc
  return { messages, rs, as, asOpen, bs, alphas, gammas, enc, messagesOpen, rsOpen, bsOpen,
           alphasOpen1, alphasOpen2, gammasOpen1, gammasOpen2 }

/-- bb_oblivious_signature.cc:329-338, one iteration: commitment to `as[i]` in slot `i`, and its
opening. -/
def commitNewAt (ped : Pedersen) (as : List BigNum) (draw : Nat → Nat) (i : Nat) :
    Res (BigNum × BigNum) := do
  let a ← idx as i
  Ped.commit ped (slot ped.gs.length i a) (draw i)

/-- What lines 245-398 of `GenerateRequestAndProof` produce: the request, the secret exponents and
the commitments. -/
structure Prepared where
  ks : List CsCt
  ys : List CsCt
  witness : Witness
  cts : List CsCt
  commitAs : List BigNum
  commitBs : BigNum
  commitAlphas : BigNum
  commitGammas : BigNum

/-- bb_oblivious_signature.cc:253-398, the first part of `GenerateRequestAndProof`: masks,
ciphertexts, commitments. -/
def prepare (v : BbSig G) (ms rs : List BigNum) (pk : BbPublicKey) (openMessages openRs : BigNum)
    (d : ReqDraws) : Res Prepared := do
  let q : BigNum := v.group.order
  let bsBound ← lshift64 (q * q) (v.params.chal + v.params.sec)
  let as ← (List.range ms.length).mapM (fun i => v.group.generatePrivateKey (d.a i))
  let bs ← drawList ms.length bsBound d.b
  let alphas := List.zipWith (· * ·) ms as
  let gammas := List.zipWith (· * ·) rs as
  let keys ← parseKeys v.cs pk
  if v.cs.len = 0 then .ub
  else do
    let enc ← drawList (numCts ms.length v.cs.len) v.cs.n d.enc
    let cts ← homCts v.cs (List.zipWith (fun alpha b => alpha + b * q) alphas bs) as gammas enc
      keys.1 keys.2
    let cas ← (List.range as.length).mapM (commitNewAt v.ped as d.openA)
    let cbs ← Ped.commit v.ped bs d.openB
    let zeros := List.replicate v.ped.gs.length 0
    let za ← Ped.commit v.ped zeros d.openAlphas
    let zg ← Ped.commit v.ped zeros d.openGammas
    let commitAlphas ← accumulate v.ped za.1 (cas.map Prod.fst) ms
    let commitGammas ← accumulate v.ped zg.1 (cas.map Prod.fst) rs
    return {
      ks := keys.1, ys := keys.2, cts
      witness := {
        messages := ms, rs, as, asOpen := cas.map Prod.snd, bs, alphas, gammas, enc
        messagesOpen := openMessages, rsOpen := openRs, bsOpen := cbs.2
        alphasOpen1 := za.2 + (List.zipWith (· * ·) (cas.map Prod.snd) ms).sum
        alphasOpen2 := za.2
        gammasOpen1 := zg.2 + (List.zipWith (· * ·) (cas.map Prod.snd) rs).sum
        gammasOpen2 := zg.2 }
      commitAs := cas.map Prod.fst, commitBs := cbs.1, commitAlphas, commitGammas }

/-- bb_oblivious_signature.cc:218-643 `GenerateRequestAndProof`: request, proof, private state. -/
def generateRequest (H : Hashes) (v : BbSig G) (ms rs : List BigNum) (pk : BbPublicKey)
    (commitMessages openMessages commitRs openRs : BigNum) (d : ReqDraws) :
    Res (BbRequest × BbReqProof × List Bytes) :=
  if v.ped.gs.length < ms.length then .err .invalidArgument
  else if rs.length ≠ ms.length then .err .invalidArgument
  else do
    let p ← prepare v ms rs pk openMessages openRs d
    let state ← bigNumVectorToProto p.witness.as
    let ctsProto ← p.cts.mapM Cs.ciphertextToProto
    let request : BbRequest := ⟨ms.length, ctsProto⟩
    let dummy ← dummyWitness v ms.length d
    let c1 ← commitments v.ped p.commitAs dummy
    let dummyCts ← ciphertexts v p.ks p.ys dummy
    let cm ← BN.toBytes commitMessages
    let cr ← BN.toBytes commitRs
    let cas ← bigNumVectorToProto p.commitAs
    let cbs ← BN.toBytes p.commitBs
    let cal ← BN.toBytes p.commitAlphas
    let cga ← BN.toBytes p.commitGammas
    let m1 ← Composites.toProto
      ⟨c1.1, c1.2.1, c1.2.2.1, c1.2.2.2.1, c1.2.2.2.2.1, c1.2.2.2.2.2.1, c1.2.2.2.2.2.2.1,
        c1.2.2.2.2.2.2.2, dummyCts⟩
    let c ← requestChallenge H v ⟨v.params, pk, cm, cr, cas, cbs, cal, cga, request⟩ m1
    let challenge ← BN.toBytes c
    let m2 ← (Witness.mask c dummy p.witness).toProto
    return (request, ⟨cas, cbs, cal, cga, challenge, m2⟩, state)

/-- bb_oblivious_signature.cc:652-758: the size checks of `VerifyRequest`; dividing by a vector
length of 0 is undefined. -/
def requestSizes (v : BbSig G) (req : BbRequest) (p : BbReqProof) : Res Unit :=
  if req.num > v.ped.gs.length then .err .invalidArgument
  else if p.commitAs.length ≠ req.num then .err .invalidArgument
  else if p.message2.messages.length ≠ req.num then .err .invalidArgument
  else if p.message2.rs.length ≠ req.num then .err .invalidArgument
  else if p.message2.as.length ≠ req.num then .err .invalidArgument
  else if p.message2.bs.length ≠ req.num then .err .invalidArgument
  else if p.message2.alphas.length ≠ req.num then .err .invalidArgument
  else if p.message2.gammas.length ≠ req.num then .err .invalidArgument
  else if v.cs.len = 0 then .ub
  else if req.cts.length ≠ numCts req.num v.cs.len then .err .invalidArgument
  else if p.message2.enc.length ≠ numCts req.num v.cs.len then .err .invalidArgument
  else .ok ()

/-- bb_oblivious_signature.cc:830-892: the bounds of the masked values (all with `>=`; there is no
check of `masked_dummy_rs`). -/
def requestBounds (v : BbSig G) (w : Witness) : Res Unit := do
  let q : BigNum := v.group.order
  let messagesBound ← lshift64 q (v.params.chal + v.params.sec + 1)
  let bsBound ← lshift64 (q * q) (2 * v.params.chal + 2 * v.params.sec + 1)
  let alphasBound := messagesBound * q
  if w.messages.any (fun x => decide (x ≥ messagesBound)) ∨
      w.as.any (fun x => decide (x ≥ messagesBound)) ∨
      w.bs.any (fun x => decide (x ≥ bsBound)) ∨
      w.alphas.any (fun x => decide (x ≥ alphasBound)) ∨
      w.gammas.any (fun x => decide (x ≥ alphasBound)) then .err .invalidArgument
  else .ok ()

/-- bb_oblivious_signature.cc:983-988 (and to 1026): `masked / value^challenge` for a commitment. -/
def unmask (ped : Pedersen) (c masked value : BigNum) : Res BigNum := do
  let power ← Ped.multiply ped value c
  let inverse ← BN.modInverse power ped.n
  Ped.add ped masked inverse

/-- bb_oblivious_signature.cc:1043-1068: the same for a ciphertext. -/
def unmaskCt (pk : CsPublic) (c : BigNum) (masked value : CsCt) : Res CsCt := do
  let power ← Cs.multiply pk value c
  let u ← BN.modInverse power.u pk.modulus
  let es ← power.es.mapM (fun e => BN.modInverse e pk.modulus)
  Cs.add pk masked ⟨u, es⟩

/-- bb_oblivious_signature.cc:983-1072: the first message, recomputed from the masked values. -/
def recompute (v : BbSig G) (p : BbReqProof) (commitMessages commitRs : BigNum) (cts : List CsCt)
    (masked : BigNum × BigNum × List BigNum × BigNum × BigNum × BigNum × BigNum × BigNum)
    (maskedCts : List CsCt) : Res Composites := do
  let c := BN.ofBytes p.challenge
  let commitAs := parseBigNumVectorProto p.commitAs
  let messages ← unmask v.ped c masked.1 commitMessages
  let rs ← unmask v.ped c masked.2.1 commitRs
  let as ← (masked.2.2.1.zip commitAs).mapM (fun x => unmask v.ped c x.1 x.2)
  let bs ← unmask v.ped c masked.2.2.2.1 (BN.ofBytes p.commitBs)
  let alphas1 ← unmask v.ped c masked.2.2.2.2.1 (BN.ofBytes p.commitAlphas)
  let alphas2 ← unmask v.ped c masked.2.2.2.2.2.1 (BN.ofBytes p.commitAlphas)
  let gammas1 ← unmask v.ped c masked.2.2.2.2.2.2.1 (BN.ofBytes p.commitGammas)
  let gammas2 ← unmask v.ped c masked.2.2.2.2.2.2.2 (BN.ofBytes p.commitGammas)
  let dcts ← (maskedCts.zip cts).mapM (fun x => unmaskCt v.cs c x.1 x.2)
  return ⟨messages, rs, as, bs, alphas1, alphas2, gammas1, gammas2, dcts⟩

/-- bb_oblivious_signature.cc:646-1090 `VerifyRequest`. -/
def verifyRequest (H : Hashes) (v : BbSig G) (pk : BbPublicKey) (req : BbRequest) (p : BbReqProof)
    (commitMessages commitRs : BigNum) : Res Unit := do
  requestSizes v req p
  let cm ← BN.toBytes commitMessages
  let cr ← BN.toBytes commitRs
  let cts ← req.cts.mapM (Cs.parseCiphertextProto v.cs)
  let w := p.message2.parse
  requestBounds v w
  let masked ← commitments v.ped (parseBigNumVectorProto p.commitAs) w
  let keys ← parseKeys v.cs pk
  let maskedCts ← ciphertexts v keys.1 keys.2 w
  let dummy ← recompute v p commitMessages commitRs cts masked maskedCts
  let m1 ← dummy.toProto
  let c ← requestChallenge H v
    ⟨v.params, pk, cm, cr, p.commitAs, p.commitBs, p.commitAlphas, p.commitGammas, req⟩ m1
  if c ≠ BN.ofBytes p.challenge then .err .invalidArgument else .ok ()

/-- The fields of `BbObliviousSignatureResponseProof::Statement`. -/
structure RespStatement where
  params : BbParams
  publicKey : BbPublicKey
  commitMessages : Bytes
  commitRs : Bytes
  request : BbRequest
  response : List Bytes
  commitBetas : Bytes

/-- `BbObliviousSignatureResponseProof::Statement` as fields
(bb_oblivious_signature.cc:1555-1562). -/
def RespStatement.fields (s : RespStatement) : List Wire.Field :=
  Wire.msgField 1 s.params.fields ++ Wire.msgField 2 s.publicKey.fields ++
    Wire.bytesField 3 s.commitMessages ++ Wire.bytesField 4 s.commitRs ++
    Wire.msgField 5 s.request.fields ++
    Wire.msgField 6 (Wire.msgField 1 (Wire.ecPointVector s.response)) ++
    Wire.bytesField 7 s.commitBetas

/-- bb_oblivious_signature.cc:1564-1581: what is hashed for a response proof. -/
def responseTranscript (s : RespStatement) (m : BbRespMessage1) : Bytes :=
  Wire.transcript responseLabel s.fields m.fields

/-- bb_oblivious_signature.cc:1543-1589 `GenerateResponseProofChallenge`. -/
def responseChallenge (H : Hashes) (v : BbSig G) (pk : BbPublicKey)
    (commitMessages commitRs : BigNum) (req : BbRequest) (response : List Bytes)
    (commitBetas : BigNum) (m : BbRespMessage1) : Res BigNum := do
  let bound ← lshift64 1 v.params.chal
  let cm ← BN.toBytes commitMessages
  let cr ← BN.toBytes commitRs
  let cb ← BN.toBytes commitBetas
  Ctx.randomOracleSha512 H (responseTranscript ⟨v.params, pk, cm, cr, req, response, cb⟩ m) bound

/-- The draws of `GenerateResponseAndProof`. -/
structure RespDraws where
  openBetas : Nat
  betas : Nat → Nat
  xs : Nat → Nat
  opening : Nat

/-- bb_oblivious_signature.cc:1122-1134, one iteration. -/
def decryptOne (v : BbSig G) (sk : CsPrivate) (p : CsCtProto) : Res (CsCt × List BigNum) := do
  let ct ← Cs.parseCiphertextProto v.cs p
  let betas ← Cs.decrypt sk ct
  return (ct, betas)

/-- bb_oblivious_signature.cc:1142-1145, one iteration. -/
def signOne (v : BbSig G) (beta : BigNum) : Res G := do
  let inverse ← BN.modInverse beta v.group.order
  return inverse • v.base

/-- bb_oblivious_signature.cc:1219-1229 and 1394-1402: the values of ciphertext `i`; the start of
the batch beyond the end of the vector is undefined (the size of the batch is then computed by an
unsigned subtraction that wraps). -/
def batch (len num : Nat) (l : List BigNum) (i : Nat) : Res (List BigNum) :=
  if num < i * len then .ub
  else .ok ((l.drop (i * len)).take (min len (num - i * len)))

/-- bb_oblivious_signature.cc:1243-1248, one iteration. -/
def dummyE (sk : CsPrivate) (u : BigNum) (xs es : List BigNum) (j : Nat) : Res BigNum := do
  let x ← idx xs j
  let ux ← BN.modExp u x sk.pub.modulus
  let e ← idx es j
  BN.modMul ux e sk.pub.modulus

/-- bb_oblivious_signature.cc:1218-1253, one iteration: ciphertext `i`. -/
def dummyEs (v : BbSig G) (sk : CsPrivate) (num : Nat) (cts : List CsCt) (betas xs : List BigNum)
    (i : Nat) : Res (List Bytes) := do
  let bs ← batch v.cs.len num betas i
  let inter ← Cs.encryptWithRand sk.pub bs 0
  let ct ← idx cts i
  let es ← (List.range bs.length).mapM (dummyE sk ct.u xs inter.es)
  bigNumVectorToProto es

/-- bb_oblivious_signature.cc:1275-1276, one iteration. -/
def maskX (c : BigNum) (ds xs : List BigNum) (i : Nat) : Res BigNum := do
  let d ← idx ds i
  let x ← idx xs i
  return d + x * c

/-- bb_oblivious_signature.cc:1092-1291 `GenerateResponseAndProof`.  (The private key proto is an
argument of the function but is not used.  The comparison `num_messages() < 0` is always false.) -/
def generateResponse (H : Hashes) (v : BbSig G) (sk : CsPrivate) (req : BbRequest)
    (pk : BbPublicKey) (commitMessages commitRs : BigNum) (d : RespDraws) :
    Res (List Bytes × BbRespProof) :=
  if req.num > v.ped.gs.length then .err .invalidArgument
  else do
    let dec ← req.cts.mapM (decryptOne v sk)
    let cts := dec.map Prod.fst
    let all := (dec.map Prod.snd).flatten
    if all.length < req.num then .ub
    else do
      let betas := all.take req.num
      let sigs ← betas.mapM (signOne v)
      let response ← ecPointVectorToProto v.group sigs
      let cb ← Ped.commit v.ped betas d.openBetas
      let cbBytes ← BN.toBytes cb.1
      let bound ← betasBound v.group (2 * v.params.chal + 2 * v.params.sec)
      let dBetas ← drawList req.num bound d.betas
      let xBound ← lshift64 v.cs.n (v.params.chal + v.params.sec)
      let dXs ← drawList v.cs.len xBound d.xs
      let dOpening ← Ctx.randLessThan d.opening xBound
      let dCommit ← Ped.commitWithRand v.ped dBetas dOpening
      let dYs ← dXs.mapM (fun x => BN.modExp sk.pub.g x sk.pub.modulus)
      let m1Ys ← bigNumVectorToProto dYs
      let m1Commit ← BN.toBytes dCommit
      let m1Gs ← ecPointVectorToProto v.group (List.zipWith (· • ·) dBetas sigs)
      let m1Es ← (List.range req.cts.length).mapM (dummyEs v sk req.num cts dBetas dXs)
      let c ← responseChallenge H v pk commitMessages commitRs req response cb.1
        ⟨m1Ys, m1Commit, m1Gs, m1Es⟩
      let challenge ← BN.toBytes c
      let mBetas ← bigNumVectorToProto (List.zipWith (fun d b => d + b * c) dBetas betas)
      let mXs ← (List.range v.cs.len).mapM (maskX c dXs sk.xs)
      let mXsBytes ← bigNumVectorToProto mXs
      let mOpening ← BN.toBytes (dOpening + cb.2 * c)
      return (response, ⟨cbBytes, challenge, mXsBytes, mBetas, mOpening⟩)

/-- bb_oblivious_signature.cc:1413-1428, one iteration. -/
def recomputeE (v : BbSig G) (c : BigNum) (ct : CsCt) (xs es : List BigNum) (j : Nat) :
    Res BigNum := do
  let e ← idx es j
  let x ← idx xs j
  let ux ← BN.modExp ct.u x v.cs.modulus
  let masked ← BN.modMul e ux v.cs.modulus
  let value ← idx ct.es j
  let power ← BN.modExp value c v.cs.modulus
  let inverse ← BN.modInverse power v.cs.modulus
  BN.modMul masked inverse v.cs.modulus

/-- bb_oblivious_signature.cc:1393-1432, one iteration: ciphertext `i`. -/
def recomputeEs (v : BbSig G) (c : BigNum) (num : Nat) (cts : List CsCt) (betas xs : List BigNum)
    (i : Nat) : Res (List Bytes) := do
  let bs ← batch v.cs.len num betas i
  let inter ← Cs.encryptWithRand v.cs bs 0
  let ct ← idx cts i
  let es ← (List.range bs.length).mapM (recomputeE v c ct xs inter.es)
  bigNumVectorToProto es

/-- bb_oblivious_signature.cc:1451-1460, one iteration. -/
def recomputeY (v : BbSig G) (c : BigNum) (xs : List BigNum) (i : Nat) : Res BigNum := do
  let x ← idx xs i
  let masked ← BN.modExp v.cs.g x v.cs.modulus
  let y ← idx v.cs.ys i
  let power ← BN.modExp y c v.cs.modulus
  let inverse ← BN.modInverse power v.cs.modulus
  BN.modMul masked inverse v.cs.modulus

/-- bb_oblivious_signature.cc:1293-1481 `VerifyResponse`. -/
def verifyResponse (H : Hashes) (v : BbSig G) (pk : BbPublicKey) (response : List Bytes)
    (p : BbRespProof) (req : BbRequest) (commitMessages commitRs : BigNum) : Res Unit :=
  if response.length ≠ req.num then .err .invalidArgument
  else if p.xs.length ≠ v.cs.len then .err .invalidArgument
  else if p.betas.length ≠ req.num then .err .invalidArgument
  else do
    let cts ← req.cts.mapM (Cs.parseCiphertextProto v.cs)
    let sigs ← parseECPointVectorProto v.group response
    let commitBetas := BN.ofBytes p.commitBetas
    let c := BN.ofBytes p.challenge
    let xs := parseBigNumVectorProto p.xs
    let betas := parseBigNumVectorProto p.betas
    let bound ← betasBound v.group (2 * v.params.chal + 2 * v.params.sec + 1)
    if betas.any (fun b => decide (b ≥ bound)) then .err .invalidArgument
    else do
      let gs := List.zipWith (fun (s : G) (b : BigNum) => b • s + -(c • v.base)) sigs betas
      let m1Gs ← ecPointVectorToProto v.group gs
      let m1Es ← (List.range req.cts.length).mapM (recomputeEs v c req.num cts betas xs)
      let masked ← Ped.commitWithRand v.ped betas (BN.ofBytes p.opening)
      let dCommit ← unmask v.ped c masked commitBetas
      let m1Commit ← BN.toBytes dCommit
      let dYs ← (List.range v.cs.len).mapM (recomputeY v c xs)
      let m1Ys ← bigNumVectorToProto dYs
      let c' ← responseChallenge H v pk commitMessages commitRs req response commitBetas
        ⟨m1Ys, m1Commit, m1Gs, m1Es⟩
      if c' ≠ c then .err .invalidArgument else .ok ()

/-- bb_oblivious_signature.cc:1499-1500, one iteration. -/
def extractOne (points : List G) (as : List BigNum) (i : Nat) : Res G := do
  let P ← idx points i
  let a ← idx as i
  return a • P

/-- bb_oblivious_signature.cc:1483-1504 `ExtractResults` (the request is not used). -/
def extractResults (v : BbSig G) (response : List Bytes) (state : List Bytes) : Res (List G) := do
  let points ← parseECPointVectorProto v.group response
  let as := parseBigNumVectorProto state
  (List.range points.length).mapM (extractOne points as)

end Bb
end PJC
