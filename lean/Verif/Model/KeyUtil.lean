import Verif.Model.WireParse
import Verif.Model.ElGamal
import Verif.Model.EcCipher
/-
Model of /repo/private_join_and_compute/util/proto_util.h, ec_key_util.cc, elgamal_key_util.cc
and elgamal_proto_util.cc: keys in record files; and of crypto/ec_point_util.cc.

Files are those of `Model/RecordIO.lean`: a world of named files and a record `Ω` of which
system calls fail.  `create` is `ECGroup::Create(curve_id)`; `junk`/`junkMsg` are what protobuf
leaves behind after an incomplete varint / a failed parse.
-/
namespace PJC.KeyUtil

open Wire Rec

/-! ### proto_util.h -/

/-- proto_util.h:61-66 `ToString`. -/
def toString (m : List Field) : Bytes := enc m

/-- proto_util.h:96-102 `WriteProtoToFile`: a fresh writer, one record. -/
def writeProtoToFile (Ω : Faults) (m : List Field) (name : Bytes) (w : World) : Res Unit × World :=
  let x := writeFile Ω (fun r o => o.writeRecord Ω r) name [toString m] ⟨none, w⟩
  (x.1, x.2.world)

/-- proto_util.h:104-113 `WriteRecordsToFile`. -/
def writeRecordsToFile (Ω : Faults) (name : Bytes) (ms : List (List Field)) (w : World) :
    Res Unit × World :=
  let x := writeFile Ω (fun r o => o.writeRecord Ω r) name (ms.map toString) ⟨none, w⟩
  (x.1, x.2.world)

/-- proto_util.h:68-77 `ReadProtoFromFile`: the first record of the file; whether more follows
is not looked at. -/
def readProtoFromFile (junk : Nat) (junkMsg : Bytes → List Field) (files : Bytes → Option Bytes)
    (name : Bytes) : Res (List Field) := do
  let s ← openRead files name
  let raw ← (readRecord junk s).1
  return fromString junkMsg raw

/-- proto_util.h:79-94 `ReadProtosFromFile`. -/
def readProtosFromFile (junk : Nat) (junkMsg : Bytes → List Field) (files : Bytes → Option Bytes)
    (name : Bytes) : Res (List (List Field)) := do
  let s ← openRead files name
  let x := readAll junk (s.rest.length + 1) s
  let _ ← x.2
  return x.1.map (fromString junkMsg)

/-! ### ec_key_util.cc -/

variable {G : Type} [AddCommGroup G] [DecidableEq G]

/-- crypto/ec_key.proto `EcKeyProto`. -/
def ecKeyProto (curveId : Int) (key : Bytes) : List Field := int64Field 1 curveId ++ bytesField 2 key

/-- ec_key_util.cc:25-33 `GenerateEcKey`; `draw` is the random word. -/
def generateEcKey (create : Int → Res (EcGroup G)) (Ω : Faults) (draw : Nat) (curveId : Int)
    (name : Bytes) (w : World) : Res Unit × World :=
  match (do
    let E ← create curveId
    let k ← E.generatePrivateKey draw
    let bs ← BN.toBytes k
    return ecKeyProto curveId bs) with
  | .ok m => writeProtoToFile Ω m name w
  | .err c => (.err c, w)
  | .crash => (.crash, w)
  | .ub => (.ub, w)

/-- ec_key_util.cc:35-43 `DeserializeEcKey`. -/
def deserializeEcKey (curveId : Int) (m : List Field) : Res BigNum :=
  if curveId ≠ getInt32 1 m then .err .invalidArgument
  else .ok (BN.ofBytes (getBytes 2 m))

/-! ### elgamal_proto_util.cc -/

/-- crypto/elgamal.proto `ElGamalPublicKey` (`p` is never set). -/
def elGamalPublicKeyProto (g y : Bytes) : List Field := bytesField 2 g ++ bytesField 3 y

/-- crypto/elgamal.proto `ElGamalSecretKey`. -/
def elGamalSecretKeyProto (x : Bytes) : List Field := bytesField 1 x

/-- crypto/elgamal.proto `ElGamalCiphertext`. -/
def elGamalCiphertextProto (u e : Bytes) : List Field := bytesField 1 u ++ bytesField 2 e

/-- elgamal_proto_util.cc:25-35 `SerializePublicKey`. -/
def serializePublicKey (E : EcGroup G) (pk : ElGamal.PublicKey G) : Res (List Field) := do
  let g ← E.toBytesCompressed pk.g
  let y ← E.toBytesCompressed pk.y
  return elGamalPublicKeyProto g y

/-- elgamal_proto_util.cc:37-47 `SerializeCiphertext`. -/
def serializeCiphertext (E : EcGroup G) (c : ElGamal.Ct G) : Res (List Field) := do
  let u ← E.toBytesCompressed c.u
  let e ← E.toBytesCompressed c.e
  return elGamalCiphertextProto u e

/-- elgamal_proto_util.cc:49-54 `SerializePrivateKey`. -/
def serializePrivateKey (sk : ElGamal.PrivateKey) : Res (List Field) := do
  let x ← BN.toBytes sk.x
  return elGamalSecretKeyProto x

/-- elgamal_proto_util.cc:56-64 `DeserializePublicKey`. -/
def deserializePublicKey (E : EcGroup G) (m : List Field) : Res (ElGamal.PublicKey G) := do
  let g ← E.createECPoint (getBytes 2 m)
  let y ← E.createECPoint (getBytes 3 m)
  return { g := g, y := y }

/-- elgamal_proto_util.cc:66-70 `DeserializePrivateKey`. -/
def deserializePrivateKey (m : List Field) : Res ElGamal.PrivateKey :=
  .ok { x := BN.ofBytes (getBytes 1 m) }

/-- elgamal_proto_util.cc:72-80 `DeserializeCiphertext`. -/
def deserializeCiphertext (E : EcGroup G) (m : List Field) : Res (ElGamal.Ct G) := do
  let u ← E.createECPoint (getBytes 1 m)
  let e ← E.createECPoint (getBytes 2 m)
  return { u := u, e := e }

/-! ### elgamal_key_util.cc -/

/-- elgamal_key_util.cc:37-54 `GenerateElGamalKeyPair`. -/
def generateElGamalKeyPair (create : Int → Res (EcGroup G)) (Ω : Faults) (draw : Nat)
    (curveId : Int) (pubName prvName : Bytes) (w : World) : Res Unit × World :=
  match (do
    let E ← create curveId
    let kp ← ElGamal.generateKeyPair E draw
    let pub ← serializePublicKey E kp.1
    let prv ← serializePrivateKey kp.2
    return (pub, prv)) with
  | .ok (pub, prv) =>
    match writeProtoToFile Ω pub pubName w with
    | (.ok _, w) => writeProtoToFile Ω prv prvName w
    | x => x
  | .err c => (.err c, w)
  | .crash => (.crash, w)
  | .ub => (.ub, w)

/-- elgamal_key_util.cc:66-75, the loop reading the shares. -/
def readShares (junk : Nat) (junkMsg : Bytes → List Field) (E : EcGroup G)
    (files : Bytes → Option Bytes) : List Bytes → Res (List (ElGamal.PublicKey G))
  | [] => .ok []
  | n :: ns => do
    let m ← readProtoFromFile junk junkMsg files n
    let pk ← deserializePublicKey E m
    let rest ← readShares junk junkMsg E files ns
    return pk :: rest

/-- elgamal_key_util.cc:56-85 `ComputeJointElGamalPublicKey`. -/
def computeJointElGamalPublicKey (create : Int → Res (EcGroup G)) (junk : Nat)
    (junkMsg : Bytes → List Field) (Ω : Faults) (curveId : Int) (shares : List Bytes)
    (joint : Bytes) (w : World) : Res Unit × World :=
  if shares = [] then (.err .invalidArgument, w)
  else
    match (do
      let E ← create curveId
      let pks ← readShares junk junkMsg E w.files shares
      let pk ← ElGamal.publicKeyFromShares pks
      serializePublicKey E pk) with
    | .ok m => writeProtoToFile Ω m joint w
    | .err c => (.err c, w)
    | .crash => (.crash, w)
    | .ub => (.ub, w)

/-! ### ec_point_util.cc -/

/-- ec_point_util.cc:42-45 `GetRandomCurvePoint`. -/
def getRandomCurvePoint (E : EcGroup G) (draw : Nat) : Res Bytes := do
  let p ← E.getRandomGenerator draw
  E.toBytesCompressed p

/-- ec_point_util.cc:47-62 `HashToCurve`. -/
def hashToCurve (E : EcGroup G) (input : Bytes) (t : HashType) : Res Bytes :=
  if t = .sha512 then do
    let p ← E.hashSha512 input
    E.toBytesCompressed p
  else if t = .sha256 then do
    let p ← E.hashSha256 input
    E.toBytesCompressed p
  else .err .invalidArgument

/-- ec_point_util.cc:64-66 `IsCurvePoint`. -/
def isCurvePoint (E : EcGroup G) (input : Bytes) : Bool :=
  match E.createECPoint input with
  | .ok _ => true
  | _ => false

end PJC.KeyUtil
