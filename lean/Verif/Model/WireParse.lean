import Verif.Model.Wire
/-
Model of parsing a protobuf message, as called by
/repo/private_join_and_compute/util/proto_util.h:54-59 `FromString`
(`MessageLite::ParseFromArray`).  A message is parsed into its list of fields; the accessors
below say what the generated class returns.  Inputs on which protobuf's behaviour is not
modelled (malformed input, groups, overlong tags or sizes) give `none`.
-/
namespace PJC.Wire

/-- A varint of at most `fuel` bytes: its value and the rest of the input. -/
def readVarint : Nat → Bytes → Option (Nat × Bytes)
  | 0, _ => none
  | _, [] => none
  | fuel + 1, b :: r =>
    if b.val < 128 then some (b.val, r)
    else
      match readVarint fuel r with
      | some (v, r) => some (b.val % 128 + 128 * v, r)
      | none => none

/-- One field of a message.  Fields of the two fixed-width wire types are unknown to every
message of this project: they are skipped. -/
def readField (bs : Bytes) : Option (Option Field × Bytes) :=
  match readVarint 5 bs with
  | none => none
  | some (tag, r) =>
    if tag < 8 ∨ 2 ^ 32 ≤ tag then none
    else if tag % 8 = 0 then
      match readVarint 10 r with
      | none => none
      | some (v, r) => some (some (.varint (tag / 8) (v % 2 ^ 64)), r)
    else if tag % 8 = 2 then
      match readVarint 5 r with
      | none => none
      | some (n, r) =>
        if n ≤ r.length ∧ n < 2 ^ 31 - 16 then some (some (.len (tag / 8) (r.take n)), r.drop n)
        else none
    else if tag % 8 = 1 then
      if 8 ≤ r.length then some (none, r.drop 8) else none
    else if tag % 8 = 5 then
      if 4 ≤ r.length then some (none, r.drop 4) else none
    else none

/-- The fields of a message, in order; every field takes at least one byte, so the length of
the input is enough fuel. -/
def readFields : Nat → Bytes → Option (List Field)
  | _, [] => some []
  | 0, _ :: _ => none
  | fuel + 1, b :: r =>
    match readField (b :: r) with
    | none => none
    | some (f, r) =>
      match readFields fuel r with
      | none => none
      | some fs => some (f.toList ++ fs)

/-- `ParseFromArray`: the fields of a well-formed message. -/
def parse (bs : Bytes) : Option (List Field) := readFields bs.length bs

/-- proto_util.h:54-59 `FromString`: the result of `ParseFromArray` is ignored, so a message
that cannot be parsed gives whatever protobuf has left in the object: `junk`. -/
def fromString (junk : Bytes → List Field) (bs : Bytes) : List Field :=
  match parse bs with
  | some fs => fs
  | none => junk bs

/-- The payload of a `bytes` field with this number. -/
def Field.bytes? (num : Nat) : Field → Option Bytes
  | .len k b => if k = num then some b else none
  | .varint _ _ => none

/-- The payload of an integer field with this number. -/
def Field.int? (num : Nat) : Field → Option Nat
  | .varint k v => if k = num then some v else none
  | .len _ _ => none

/-- A singular `bytes` field: the last occurrence wins, the default is empty. -/
def getBytes (num : Nat) (fs : List Field) : Bytes := (fs.filterMap (Field.bytes? num)).getLast?.getD []

/-- A `repeated bytes` field. -/
def getRep (num : Nat) (fs : List Field) : List Bytes := fs.filterMap (Field.bytes? num)

/-- A 32-bit two's complement number (conversion of the varint to `int32`). -/
def toInt32 (v : Nat) : Int :=
  if v % 2 ^ 32 < 2 ^ 31 then ((v % 2 ^ 32 : Nat) : Int) else ((v % 2 ^ 32 : Nat) : Int) - 2 ^ 32

/-- A singular `int32` field: the last occurrence wins, the default is 0. -/
def getInt32 (num : Nat) (fs : List Field) : Int :=
  toInt32 ((fs.filterMap (Field.int? num)).getLast?.getD 0)

end PJC.Wire
