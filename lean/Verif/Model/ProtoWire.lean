import Verif.Model.WireParse
import Verif.Model.Rpc
/-
Model of the protocol messages as bytes on the wire, and of the connection that carries them:
the generated classes of /repo/private_join_and_compute/match.proto,
private_intersection_sum.proto and private_join_and_compute.proto, serialized and parsed by gRPC
around the call at /repo/private_join_and_compute/client.cc:62-63.
-/
namespace PJC.Protocol
open PJC.Wire

/-! ### Serialization -/

/-- match.proto:28-31 `EncryptedElement`. -/
def elementFields (e : EncElement) : List Field := bytesField 1 e.element ++ bytesField 2 e.data

/-- match.proto:23-25 `EncryptedSet`. -/
def setFields (es : List EncElement) : List Field := repMsg 1 (es.map elementFields)

/-- A field of type `EncryptedSet`: it is touched (`mutable_encrypted_set`,
`mutable_reencrypted_set`) only when an element is added (server_impl.cc:50-51,
client_impl.cc:55, 81), so an empty set is left out. -/
def setField (num : Nat) (es : List EncElement) : List Field :=
  if es = [] then [] else msgField num (setFields es)

/-- private_intersection_sum.proto:37-41 `ClientRoundOne`. -/
def clientRoundOneFields (m : ClientRoundOne) : List Field :=
  bytesField 1 m.publicKey ++ setField 2 m.encryptedSet ++ setField 3 m.reencryptedSet

/-- private_intersection_sum.proto:56-59 `ServerRoundTwo`. -/
def serverRoundTwoFields (m : ServerRoundTwo) : List Field :=
  int64Field 1 m.size ++ bytesField 2 m.encryptedSum

/-- private_join_and_compute.proto:24-29 `ClientMessage`,
private_intersection_sum.proto:26-42. -/
def clientFields : ClientMsg → List Field
  | .other => []
  | .empty => msgField 1 []
  | .start => msgField 1 (msgField 1 [])
  | .roundOne m => msgField 1 (msgField 2 (clientRoundOneFields m))

/-- private_join_and_compute.proto:31-36 `ServerMessage`,
private_intersection_sum.proto:46-60. -/
def serverFields : ServerMsg → List Field
  | .other => []
  | .empty => msgField 1 []
  | .roundOne es => msgField 1 (msgField 1 (setField 1 es))
  | .roundTwo m => msgField 1 (msgField 2 (serverRoundTwoFields m))

/-- `ClientMessage::SerializeAsString`. -/
def encodeClient (m : ClientMsg) : Bytes := enc (clientFields m)

/-- `ServerMessage::SerializeAsString`. -/
def encodeServer (m : ServerMsg) : Bytes := enc (serverFields m)

/-! ### Parsing -/

/-- Parses every string of a list; one failure fails the whole message. -/
def parseEach : List Bytes → Option (List (List Field))
  | [] => some []
  | b :: bs =>
    match parse b, parseEach bs with
    | some fs, some r => some (fs :: r)
    | _, _ => none

/-- A singular sub-message field: all its occurrences are parsed into one object. -/
def subMsg (num : Nat) (fs : List Field) : Option (List Field) :=
  (parseEach (getRep num fs)).map List.flatten

/-- match.proto:28-31 `EncryptedElement`, as the generated class returns it. -/
def elementOf (fs : List Field) : EncElement := { element := getBytes 1 fs, data := getBytes 2 fs }

/-- match.proto:23-25 `EncryptedSet`. -/
def setOf (fs : List Field) : Option (List EncElement) :=
  (parseEach (getRep 1 fs)).map (List.map elementOf)

/-- A field of type `EncryptedSet` in a message. -/
def setIn (num : Nat) (fs : List Field) : Option (List EncElement) := (subMsg num fs).bind setOf

/-- private_intersection_sum.proto:37-41 `ClientRoundOne`. -/
def clientRoundOneOf (fs : List Field) : Option ClientRoundOne :=
  match setIn 2 fs, setIn 3 fs with
  | some es, some rs => some { publicKey := getBytes 1 fs, encryptedSet := es, reencryptedSet := rs }
  | _, _ => none

/-- A singular `int64` field: the last occurrence wins, the default is 0. -/
def getInt64 (num : Nat) (fs : List Field) : Int :=
  let v := (fs.filterMap (Field.int? num)).getLast?.getD 0
  if v % 2 ^ 64 < 2 ^ 63 then ((v % 2 ^ 64 : Nat) : Int) else ((v % 2 ^ 64 : Nat) : Int) - 2 ^ 64

/-- private_intersection_sum.proto:56-59 `ServerRoundTwo`. -/
def serverRoundTwoOf (fs : List Field) : ServerRoundTwo :=
  { size := getInt64 1 fs, encryptedSum := getBytes 2 fs }

/-- The two-way `oneof message_content` (private_intersection_sum.proto:27-30, 47-50) while
parsing: the member that is set, with the fields parsed into it. -/
inductive OneOf where
  | none
  | first (fs : List Field)
  | second (fs : List Field)

/-- One more field: the same member again is merged, the other member replaces it, any other
field is skipped.  `ok1`, `ok2` say whether the messages inside the member parse. -/
def OneOf.add (ok1 ok2 : List Field → Bool) (o : OneOf) (f : Field) : Option OneOf :=
  match f with
  | .len 1 b =>
    match parse b with
    | some fs =>
      if ok1 fs then
        match o with
        | .first old => some (.first (old ++ fs))
        | _ => some (.first fs)
      else Option.none
    | Option.none => Option.none
  | .len 2 b =>
    match parse b with
    | some fs =>
      if ok2 fs then
        match o with
        | .second old => some (.second (old ++ fs))
        | _ => some (.second fs)
      else Option.none
    | Option.none => Option.none
  | _ => some o

/-- All fields of the message that contains the `oneof`. -/
def OneOf.addAll (ok1 ok2 : List Field → Bool) : OneOf → List Field → Option OneOf
  | o, [] => some o
  | o, f :: fs =>
    match o.add ok1 ok2 f with
    | some o => OneOf.addAll ok1 ok2 o fs
    | Option.none => Option.none

/-- private_join_and_compute.proto:24-29, private_intersection_sum.proto:26-42:
`ClientMessage::ParseFromString`. -/
def decodeClient (bs : Bytes) : Option ClientMsg :=
  match parse bs with
  | Option.none => Option.none
  | some fs =>
    if getRep 1 fs = [] then some .other
    else
      match subMsg 1 fs with
      | Option.none => Option.none
      | some inner =>
        match OneOf.addAll (fun _ => true) (fun m => (clientRoundOneOf m).isSome) .none inner with
        | some .none => some .empty
        | some (.first _) => some .start
        | some (.second m) => (clientRoundOneOf m).map .roundOne
        | Option.none => Option.none

/-- private_join_and_compute.proto:31-36, private_intersection_sum.proto:46-60:
`ServerMessage::ParseFromString`. -/
def decodeServer (bs : Bytes) : Option ServerMsg :=
  match parse bs with
  | Option.none => Option.none
  | some fs =>
    if getRep 1 fs = [] then some .other
    else
      match subMsg 1 fs with
      | Option.none => Option.none
      | some inner =>
        match OneOf.addAll (fun m => (setIn 1 m).isSome) (fun _ => true) .none inner with
        | some .none => some .empty
        | some (.first m) => (setIn 1 m).map .roundOne
        | some (.second m) => some (.roundTwo (serverRoundTwoOf m))
        | Option.none => Option.none

/-! ### The connection -/

/-- gRPC's default limit for a received message.  Neither client.cc:106-109 nor
server.cc:59-66 changes it. -/
def grpcLimit : Nat := 4194304

/-- client.cc:62-63: the stub serializes the request, the receiving side refuses messages above
`limit` and messages that do not parse, and the same holds for the response.  `N` is what is
behind the connection. -/
def wireNet {σ : Type} (limit : Nat) (N : Net σ) : Net σ where
  call st m :=
    if limit < (encodeClient m).length then (st, false, .other)
    else
      match decodeClient (encodeClient m) with
      | none => (st, false, .other)
      | some m' =>
        match N.call st m' with
        | (st', false, _) => (st', false, .other)
        | (st', true, r) =>
          if limit < (encodeServer r).length then (st', false, .other)
          else
            match decodeServer (encodeServer r) with
            | none => (st', false, .other)
            | some r' => (st', true, r')

end PJC.Protocol
