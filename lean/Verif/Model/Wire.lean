import Verif.Model.RecordIO
/-
Model of the protobuf (proto3) wire format, as far as it is used to build Fiat-Shamir
transcripts: `SerializeAsStringInOrder`
(/repo/private_join_and_compute/crypto/proto/proto_util.cc:80-83), which is
`MessageLite::SerializeAsString`: the fields in tag order, scalar and `bytes` fields left out when
they have their default value, sub-messages and elements of repeated fields always written.
Unknown fields are not modelled.
-/
namespace PJC.Wire

/-- protobuf `CodedOutputStream::WriteVarint64` (called at
/repo/private_join_and_compute/crypto/dodis_yampolskiy_prf/dy_verifiable_random_function.cc:231,234):
seven bits per byte, lowest first, at most ten bytes. -/
def varint (n : Nat) : Bytes := Rec.varintBytes 10 n

/-- A field on the wire: number and payload (wire type 0 or 2). -/
inductive Field where
  | varint (num : Nat) (v : Nat)
  | len (num : Nat) (b : Bytes)
  deriving DecidableEq

/-- The field number. -/
def Field.num : Field → Nat
  | .varint n _ => n
  | .len n _ => n

/-- One field: tag `num << 3 | wire_type`, then the payload. -/
def Field.enc : Field → Bytes
  | .varint num v => Wire.varint (num * 8) ++ Wire.varint v
  | .len num b => Wire.varint (num * 8 + 2) ++ Wire.varint b.length ++ b

/-- A serialized message. -/
def enc (fs : List Field) : Bytes := fs.flatMap Field.enc

/-- A singular `bytes`/`string` field: omitted when empty. -/
def bytesField (num : Nat) (b : Bytes) : List Field := if b = [] then [] else [.len num b]

/-- A singular `int64` field: omitted when 0; negative values in two's complement. -/
def int64Field (num : Nat) (v : Int) : List Field :=
  if v = 0 then [] else [.varint num (v % 2 ^ 64).toNat]

/-- A singular `uint64` field: omitted when 0. -/
def uint64Field (num : Nat) (v : Nat) : List Field := if v = 0 then [] else [.varint num v]

/-- A sub-message that is present. -/
def msgField (num : Nat) (fs : List Field) : List Field := [.len num (enc fs)]

/-- A `repeated bytes` field. -/
def repBytes (num : Nat) (bs : List Bytes) : List Field := bs.map (.len num)

/-- A repeated message field. -/
def repMsg (num : Nat) (ms : List (List Field)) : List Field := ms.map (fun m => .len num (enc m))

/-- dy_verifiable_random_function.cc:222-235, 546-559 and
bb_oblivious_signature.cc:1517-1531, 1567-1581: label, then statement and first message, each
preceded by its size. -/
def transcript (label : Bytes) (statement message1 : List Field) : Bytes :=
  label ++ (varint (enc statement).length ++ enc statement) ++
    (varint (enc message1).length ++ enc message1)

/-- proto/big_num.proto `BigNumVector`. -/
def bigNumVector (v : List Bytes) : List Field := repBytes 1 v

/-- proto/ec_point.proto `ECPointVector`. -/
def ecPointVector (v : List Bytes) : List Field := repBytes 1 v

end PJC.Wire
