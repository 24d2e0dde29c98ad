import Verif.Lemmas.ProtoWire
import Verif.Props.Rpc
/-
C84, C85: the protocol messages as bytes, and the programs over a connection that carries bytes
and refuses messages above a limit.
-/
set_option linter.unusedSectionVars false
namespace PJC.Protocol
open PJC.Wire PJC.Props

/-! ### Specification -/

/-- A field as any protobuf writer may produce it, with all four wire types. -/
inductive RawField where
  | varint (num v : Nat)
  | len (num : Nat) (b : Bytes)
  | fixed64 (num : Nat) (b : Bytes)
  | fixed32 (num : Nat) (b : Bytes)
  deriving DecidableEq

/-- The tag `num << 3 | wire type`, then the payload. -/
def RawField.enc : RawField → Bytes
  | .varint n v => Wire.varint (n * 8) ++ Wire.varint v
  | .len n b => Wire.varint (n * 8 + 2) ++ Wire.varint b.length ++ b
  | .fixed64 n b => Wire.varint (n * 8 + 1) ++ b
  | .fixed32 n b => Wire.varint (n * 8 + 5) ++ b

/-- What the format allows: numbers from 1 below 2^29, 64-bit values, payloads below 2 GB. -/
def RawField.Valid : RawField → Prop
  | .varint n v => 1 ≤ n ∧ n < 2 ^ 29 ∧ v < 2 ^ 64
  | .len n b => 1 ≤ n ∧ n < 2 ^ 29 ∧ b.length < 2 ^ 31 - 16
  | .fixed64 n b => 1 ≤ n ∧ n < 2 ^ 29 ∧ b.length = 8
  | .fixed32 n b => 1 ≤ n ∧ n < 2 ^ 29 ∧ b.length = 4

/-- A message made of such fields. -/
def rawEnc (l : List RawField) : Bytes := l.flatMap RawField.enc

/-- A length-delimited field with one of these numbers. -/
def RawField.isLen (nums : List Nat) : RawField → Bool
  | .len n _ => n ∈ nums
  | _ => false

/-- protobuf's rule for a message that arrives in two pieces: what the second piece sets wins,
lists are appended, another kind of message replaces the first. -/
def mergeClient : ClientMsg → ClientMsg → ClientMsg
  | a, .other => a
  | a, .empty => if a = .other then .empty else a
  | _, .start => .start
  | .roundOne a, .roundOne b => .roundOne
      { publicKey := if b.publicKey = [] then a.publicKey else b.publicKey
        encryptedSet := a.encryptedSet ++ b.encryptedSet
        reencryptedSet := a.reencryptedSet ++ b.reencryptedSet }
  | _, .roundOne b => .roundOne b

/-! ### C84 -/

/-- **C84**, requests: every client message below 2 GB is parsed back exactly. -/
theorem C84_client_round_trip (m : ClientMsg) (h : (encodeClient m).length < 2 ^ 31 - 16) :
    decodeClient (encodeClient m) = some m := decodeClient_encode h

/-- **C84**, responses: the same, for sizes that fit `int64`. -/
theorem C84_server_round_trip (m : ServerMsg) (h : (encodeServer m).length < 2 ^ 31 - 16)
    (hs : ∀ r, m = .roundTwo r → -2 ^ 63 ≤ r.size ∧ r.size < 2 ^ 63) :
    decodeServer (encodeServer m) = some m := decodeServer_encode h hs

/-- **C84**: different messages are different on the wire. -/
theorem C84_injective (a b : ClientMsg) (ha : (encodeClient a).length < 2 ^ 31 - 16)
    (h : encodeClient a = encodeClient b) : a = b := by
  have h1 := decodeClient_encode ha
  have h2 := decodeClient_encode (m := b) (h ▸ ha)
  rw [h, h2] at h1
  cases h1; rfl

example : decodeClient (encodeClient (.roundOne ⟨[77], [⟨[2, 5], [9]⟩, ⟨[3], []⟩], [⟨[], []⟩]⟩)) =
    some (.roundOne ⟨[77], [⟨[2, 5], [9]⟩, ⟨[3], []⟩], [⟨[], []⟩]⟩) := by decide
example : encodeServer (.roundTwo ⟨-1, [5]⟩) =
    [10, 16, 18, 14, 8, 255, 255, 255, 255, 255, 255, 255, 255, 255, 1, 18, 1, 5] := by decide
example : decodeServer (encodeServer (.roundTwo ⟨-1, [5]⟩)) = some (.roundTwo ⟨-1, [5]⟩) := by decide

/-- The fields of a raw message that are not of a fixed width. -/
def RawField.known : RawField → Option Field
  | .varint n v => some (.varint n v)
  | .len n b => some (.len n b)
  | _ => none

theorem RawField.read {f : RawField} (h : f.Valid) (tail : Bytes) :
    readField (f.enc ++ tail) = some (f.known, tail) := by
  cases f with
  | varint n v => exact readField_enc (f := .varint n v) h tail
  | len n b => exact readField_enc (f := .len n b) h tail
  | fixed64 n b =>
    obtain ⟨h1, h2, h3⟩ := h
    rw [readField, RawField.enc, List.append_assoc,
      readVarint_varint (by omega) (by norm_num; omega) (by norm_num)]
    simp only []
    rw [if_neg (by omega), if_neg (by omega), if_neg (by omega), if_pos (by omega),
      if_pos (by simp [h3]), ← h3, List.drop_left]
    rfl
  | fixed32 n b =>
    obtain ⟨h1, h2, h3⟩ := h
    rw [readField, RawField.enc, List.append_assoc,
      readVarint_varint (by omega) (by norm_num; omega) (by norm_num)]
    simp only []
    rw [if_neg (by omega), if_neg (by omega), if_neg (by omega), if_neg (by omega),
      if_pos (by omega), if_pos (by simp [h3]), ← h3, List.drop_left]
    rfl

theorem RawField.enc_ne_nil (f : RawField) : f.enc ≠ [] := by
  cases f <;> simp [RawField.enc, varint_ne_nil]

theorem readFields_raw : ∀ (l : List RawField) (fuel : Nat), (∀ f ∈ l, f.Valid) →
    (rawEnc l).length ≤ fuel → readFields fuel (rawEnc l) = some (l.filterMap RawField.known)
  | [], fuel, _, _ => by cases fuel <;> rfl
  | f :: fs, fuel, h, hl => by
    have e : rawEnc (f :: fs) = f.enc ++ rawEnc fs := rfl
    rw [e] at hl ⊢
    obtain ⟨b, r, hbr⟩ : ∃ b r, f.enc = b :: r := by
      cases hf : f.enc with
      | nil => exact absurd hf f.enc_ne_nil
      | cons b r => exact ⟨b, r, rfl⟩
    cases fuel with
    | zero => rw [hbr] at hl; simp at hl
    | succ fuel =>
      have hr := RawField.read (h f (by simp)) (rawEnc fs)
      rw [hbr, List.cons_append] at hr ⊢
      rw [readFields, hr]
      simp only []
      rw [readFields_raw fs fuel (fun x hx => h x (by simp [hx]))
        (by rw [hbr] at hl; simp at hl; omega)]
      cases hk : f.known <;> simp [hk]

theorem parse_raw {l : List RawField} (h : ∀ f ∈ l, f.Valid) :
    parse (rawEnc l) = some (l.filterMap RawField.known) := readFields_raw l _ h le_rfl

theorem getRep_known (nums : List Nat) (k : Nat) (hk : k ∈ nums) (l : List RawField) :
    getRep k ((l.filter (RawField.isLen nums)).filterMap RawField.known) =
      getRep k (l.filterMap RawField.known) := by
  induction l with
  | nil => rfl
  | cons f l ih =>
    simp only [getRep] at ih ⊢
    cases f with
    | varint n v => simpa [List.filterMap_cons, RawField.isLen, RawField.known, Field.bytes?] using ih
    | fixed64 n b => simpa [List.filterMap_cons, RawField.isLen, RawField.known] using ih
    | fixed32 n b => simpa [List.filterMap_cons, RawField.isLen, RawField.known] using ih
    | len n b =>
      by_cases hn : n ∈ nums
      · by_cases hnk : n = k
        · simp [RawField.isLen, RawField.known, Field.bytes?, hn, hnk, hk, ih]
        · simpa [List.filterMap_cons, RawField.isLen, RawField.known, Field.bytes?, hn, hnk] using ih
      · have hnk : n ≠ k := fun e => hn (e ▸ hk)
        simpa [List.filterMap_cons, RawField.isLen, RawField.known, Field.bytes?, hn, hnk] using ih

theorem addAll_known (ok1 ok2 : List Field → Bool) (l : List RawField) : ∀ o : OneOf,
    OneOf.addAll ok1 ok2 o ((l.filter (RawField.isLen [1, 2])).filterMap RawField.known) =
      OneOf.addAll ok1 ok2 o (l.filterMap RawField.known) := by
  induction l with
  | nil => intro o; rfl
  | cons f l ih =>
    intro o
    cases f with
    | varint n v => simpa [List.filterMap_cons, RawField.isLen, RawField.known, OneOf.addAll, OneOf.add] using ih o
    | fixed64 n b => simpa [List.filterMap_cons, RawField.isLen, RawField.known] using ih o
    | fixed32 n b => simpa [List.filterMap_cons, RawField.isLen, RawField.known] using ih o
    | len n b =>
      by_cases hn : n ∈ [1, 2]
      · rw [List.filter_cons_of_pos (by simpa [RawField.isLen] using hn)]
        simp only [List.filterMap_cons, RawField.known, OneOf.addAll]
        cases OneOf.add ok1 ok2 o (.len n b) with
        | none => rfl
        | some o' => exact ih o'
      · rw [List.filter_cons_of_neg (by simpa [RawField.isLen] using hn)]
        have : OneOf.add ok1 ok2 o (.len n b) = some o := by
          unfold OneOf.add
          split
          · simp_all
          · simp_all
          · rfl
        simp only [List.filterMap_cons, RawField.known, OneOf.addAll, this]
        exact ih o

theorem valid_filter {l : List RawField} {p : RawField → Bool} (h : ∀ f ∈ l, f.Valid) :
    ∀ f ∈ l.filter p, f.Valid := fun f hf => h f (List.mem_filter.1 hf).1

/-- **C84**, newer writers: fields with numbers or wire types this version does not know are
ignored, wherever they stand, in the message itself and in the message inside it. -/
theorem C84_unknown_fields (outer inner : List RawField) (ho : ∀ f ∈ outer, f.Valid)
    (hi : ∀ f ∈ inner, f.Valid) (hil : (rawEnc inner).length < 2 ^ 31 - 16) :
    decodeClient (rawEnc outer) = decodeClient (rawEnc (outer.filter (RawField.isLen [1]))) ∧
    decodeServer (rawEnc outer) = decodeServer (rawEnc (outer.filter (RawField.isLen [1]))) ∧
    decodeClient (rawEnc [.len 1 (rawEnc inner)]) =
      decodeClient (rawEnc [.len 1 (rawEnc (inner.filter (RawField.isLen [1, 2])))]) ∧
    decodeServer (rawEnc [.len 1 (rawEnc inner)]) =
      decodeServer (rawEnc [.len 1 (rawEnc (inner.filter (RawField.isLen [1, 2])))]) := by
  have hlen : (rawEnc (inner.filter (RawField.isLen [1, 2]))).length < 2 ^ 31 - 16 := by
    refine lt_of_le_of_lt ?_ hil
    clear hi hil
    induction inner with
    | nil => simp
    | cons f l ih =>
      have e : ∀ l, rawEnc (f :: l) = f.enc ++ rawEnc l := fun _ => rfl
      rw [List.filter_cons]
      split
      · rw [e, e, List.length_append, List.length_append]; omega
      · rw [e, List.length_append]; omega
  have p1 := parse_raw ho
  have p2 := parse_raw (valid_filter (p := RawField.isLen [1]) ho)
  have g := getRep_known [1] 1 (by simp) outer
  have q : ∀ l : List RawField, (rawEnc l).length < 2 ^ 31 - 16 →
      parse (rawEnc [.len 1 (rawEnc l)]) = some [Field.len 1 (rawEnc l)] := by
    intro l hl
    exact parse_raw (l := [.len 1 (rawEnc l)]) (by
      intro f hf
      rw [List.mem_singleton] at hf
      subst hf
      exact ⟨by norm_num, by norm_num, hl⟩)
  have r1 := parse_raw hi
  have r2 := parse_raw (valid_filter (p := RawField.isLen [1, 2]) hi)
  have gg : ∀ b : Bytes, getRep 1 [Field.len 1 b] = [b] := fun b => rfl
  refine ⟨?_, ?_, ?_, ?_⟩
  · simp only [decodeClient, p1, p2, subMsg, g]
  · simp only [decodeServer, p1, p2, subMsg, g]
  · simp only [decodeClient, q _ hil, q _ hlen, subMsg, gg, parseEach, r1, r2, Option.map_some,
      List.flatten_cons, List.flatten_nil, List.append_nil, addAll_known]
    rfl
  · simp only [decodeServer, q _ hil, q _ hlen, subMsg, gg, parseEach, r1, r2, Option.map_some,
      List.flatten_cons, List.flatten_nil, List.append_nil, addAll_known]
    rfl

theorem readFields_bad {b : Byte} (tail : Bytes) (hb : b.val < 8 ∨ b.val < 128 ∧ 6 ≤ b.val % 8) :
    ∀ (l : List RawField) (fuel : Nat), (∀ f ∈ l, f.Valid) →
      readFields fuel (rawEnc l ++ b :: tail) = none
  | [], 0, _ => rfl
  | [], fuel + 1, _ => by
    have hr : readVarint 5 (b :: tail) = some (b.val, tail) := by
      rw [readVarint, if_pos (by omega)]
    have h0 : readField (b :: tail) = none := by
      rw [readField, hr]
      simp only []
      by_cases h8 : b.val < 8
      · rw [if_pos (Or.inl h8)]
      · rw [if_neg (by omega), if_neg (by omega), if_neg (by omega), if_neg (by omega),
          if_neg (by omega)]
    show readFields (fuel + 1) (b :: tail) = none
    rw [readFields, h0]
  | f :: fs, fuel, h => by
    have e : rawEnc (f :: fs) ++ b :: tail = f.enc ++ (rawEnc fs ++ b :: tail) := by
      rw [← List.append_assoc]; rfl
    rw [e]
    obtain ⟨c, r, hbr⟩ : ∃ b r, f.enc = b :: r := by
      cases hf : f.enc with
      | nil => exact absurd hf f.enc_ne_nil
      | cons b r => exact ⟨b, r, rfl⟩
    cases fuel with
    | zero => rw [hbr]; rfl
    | succ fuel =>
      have hr := RawField.read (h f (by simp)) (rawEnc fs ++ b :: tail)
      rw [hbr, List.cons_append] at hr ⊢
      rw [readFields, hr]
      simp only []
      rw [readFields_bad tail hb fs fuel (fun x hx => h x (by simp [hx]))]

/-- **C84**, malformed messages: after any well-formed fields, a tag with field number 0 (a byte
below 8) or with one of the two wire types that do not exist (6 and 7) makes the whole message
unreadable, whatever follows it. -/
theorem C84_malformed (l : List RawField) (hl : ∀ f ∈ l, f.Valid) (b : Byte) (tail : Bytes)
    (hb : b.val < 8 ∨ b.val < 128 ∧ 6 ≤ b.val % 8) :
    decodeClient (rawEnc l ++ b :: tail) = none ∧ decodeServer (rawEnc l ++ b :: tail) = none := by
  have hp : parse (rawEnc l ++ b :: tail) = none := readFields_bad tail hb l _ hl
  exact ⟨by rw [decodeClient, hp], by rw [decodeServer, hp]⟩

example : decodeClient (rawEnc [.len 1 (rawEnc [.len 1 []])] ++ 2 :: [1, 5]) = none ∧
    decodeClient (rawEnc [.len 1 (rawEnc [.len 1 []])]) = some .start := by decide

example : decodeClient (rawEnc [.fixed64 7 [1, 2, 3, 4, 5, 6, 7, 8], .varint 1 5,
      .len 1 (rawEnc [.fixed32 9 [1, 2, 3, 4], .len 1 [], .varint 2 7, .len 30 [255]]), .len 2 [9]]) =
    some .start := by decide

theorem parseEach_append {a b : List Bytes} {x y : List (List Field)} (ha : parseEach a = some x)
    (hb : parseEach b = some y) : parseEach (a ++ b) = some (x ++ y) := by
  induction a generalizing x with
  | nil => cases ha; exact hb
  | cons c a ih =>
    simp only [parseEach] at ha
    split at ha
    · rename_i fs r h1 h2
      cases ha
      simp only [List.cons_append, parseEach, h1, ih h2]
    · cases ha

theorem subMsg_append {n : Nat} {a b x y : List Field} (ha : subMsg n a = some x)
    (hb : subMsg n b = some y) : subMsg n (a ++ b) = some (x ++ y) := by
  unfold subMsg at *
  rw [Option.map_eq_some_iff] at ha hb
  obtain ⟨u, hu, rfl⟩ := ha
  obtain ⟨v, hv, rfl⟩ := hb
  rw [getRep_append, parseEach_append hu hv, Option.map_some, List.flatten_append]

theorem setOf_append {a b : List Field} {x y : List EncElement} (ha : setOf a = some x)
    (hb : setOf b = some y) : setOf (a ++ b) = some (x ++ y) := by
  unfold setOf at *
  rw [Option.map_eq_some_iff] at ha hb
  obtain ⟨u, hu, rfl⟩ := ha
  obtain ⟨v, hv, rfl⟩ := hb
  rw [getRep_append, parseEach_append hu hv, Option.map_some, List.map_append]

theorem setIn_append {n : Nat} {a b : List Field} {x y : List EncElement} (ha : setIn n a = some x)
    (hb : setIn n b = some y) : setIn n (a ++ b) = some (x ++ y) := by
  unfold setIn at *
  rw [Option.bind_eq_some_iff] at ha hb
  obtain ⟨u, hu, hu'⟩ := ha
  obtain ⟨v, hv, hv'⟩ := hb
  rw [subMsg_append hu hv, Option.bind_some, setOf_append hu' hv']

theorem clientRoundOneOf_append {a b : List Field} {x y : ClientRoundOne}
    (ha : clientRoundOneOf a = some x) (hb : clientRoundOneOf b = some y)
    (hy : y.publicKey = [] → getRep 1 b = []) :
    clientRoundOneOf (a ++ b) = some
      { publicKey := if y.publicKey = [] then x.publicKey else y.publicKey
        encryptedSet := x.encryptedSet ++ y.encryptedSet
        reencryptedSet := x.reencryptedSet ++ y.reencryptedSet } := by
  unfold clientRoundOneOf at ha hb
  split at ha
  swap
  · cases ha
  rename_i es rs h2 h3
  split at hb
  swap
  · cases hb
  rename_i es' rs' h2' h3'
  cases ha
  cases hb
  unfold clientRoundOneOf
  rw [setIn_append h2 h2', setIn_append h3 h3']
  simp only [Option.some.injEq, ClientRoundOne.mk.injEq, and_true]
  simp only [getBytes, List.filterMap_append]
  unfold getBytes at hy
  unfold getRep at hy
  by_cases hb : List.filterMap (Field.bytes? 1) b = []
  · simp [hb]
  · have hne : (List.filterMap (Field.bytes? 1) b).getLast?.getD [] ≠ [] := fun e => hb (hy e)
    simp only [hne, if_false]
    rw [List.getLast?_append_of_ne_nil _ hb]

/-- What a client message has inside its one field. -/
def innerFields : ClientMsg → List Field
  | .other => []
  | .empty => []
  | .start => msgField 1 []
  | .roundOne m => msgField 2 (clientRoundOneFields m)

theorem numbered_clientRoundOne (m : ClientRoundOne) : Numbered (clientRoundOneFields m) :=
  ((Numbered.bytes (by norm_num) (by norm_num) _).append
    (numbered_setField (by norm_num) (by norm_num) _)).append
    (numbered_setField (by norm_num) (by norm_num) _)

theorem numbered_client (m : ClientMsg) : Numbered (clientFields m) ∧ Numbered (innerFields m) := by
  cases m with
  | other => exact ⟨.nil, .nil⟩
  | empty => exact ⟨.msg (by norm_num) (by norm_num) _, .nil⟩
  | start => exact ⟨.msg (by norm_num) (by norm_num) _, .msg (by norm_num) (by norm_num) _⟩
  | roundOne m => exact ⟨.msg (by norm_num) (by norm_num) _, .msg (by norm_num) (by norm_num) _⟩

theorem subMsg_client {m : ClientMsg} (h : (encodeClient m).length < 2 ^ 31 - 16) :
    subMsg 1 (clientFields m) = some (innerFields m) := by
  unfold encodeClient at h
  cases m with
  | other => rfl
  | empty => decide
  | start => decide
  | roundOne m =>
    have := msgField_length 1 (innerFields (.roundOne m))
    exact subMsg_msgField 1 (numbered_client (.roundOne m)).2
      (by simp only [clientFields, innerFields] at *; omega)

theorem addAll_append (ok1 ok2 : List Field → Bool) (a b : List Field) : ∀ o : OneOf,
    OneOf.addAll ok1 ok2 o (a ++ b) =
      (OneOf.addAll ok1 ok2 o a).bind fun o => OneOf.addAll ok1 ok2 o b := by
  induction a with
  | nil => intro o; rfl
  | cons f a ih =>
    intro o
    simp only [List.cons_append, OneOf.addAll]
    cases OneOf.add ok1 ok2 o f with
    | none => rfl
    | some o' => exact ih o'

/-- The state of the `oneof` after one more message. -/
def oneofAfter (o : OneOf) : ClientMsg → OneOf
  | .other => o
  | .empty => o
  | .start => match o with
    | .first old => .first (old ++ [])
    | _ => .first []
  | .roundOne m => match o with
    | .second old => .second (old ++ clientRoundOneFields m)
    | _ => .second (clientRoundOneFields m)

theorem addAll_client {m : ClientMsg} (h : (encodeClient m).length < 2 ^ 31 - 16) (o : OneOf) :
    OneOf.addAll (fun _ => true) (fun m => (clientRoundOneOf m).isSome) o (innerFields m) =
      some (oneofAfter o m) := by
  cases m with
  | other => rfl
  | empty => rfl
  | start =>
    have hp : parse (enc []) = some [] := by decide
    cases o <;>
      simp only [innerFields, msgField, OneOf.addAll, OneOf.add, hp, if_true, oneofAfter]
  | roundOne m =>
    unfold encodeClient at h
    have h1 := msgField_length 1 (msgField 2 (clientRoundOneFields m))
    have h2 := msgField_length 2 (clientRoundOneFields m)
    simp only [clientFields] at h
    cases o <;>
      simp only [innerFields, msgField, OneOf.addAll, OneOf.add,
        parse_short (numbered_clientRoundOne m) (by omega),
        clientRoundOneOf_fields (m := m) (by omega), Option.isSome_some, if_true, oneofAfter]

/-- **C84**, messages in pieces: the concatenation of two serialized requests is read as
their merge. -/
theorem C84_concatenation (a b : ClientMsg)
    (h : (encodeClient a ++ encodeClient b).length < 2 ^ 31 - 16) :
    decodeClient (encodeClient a ++ encodeClient b) = some (mergeClient a b) := by
  have hp : parse (encodeClient a ++ encodeClient b) = some (clientFields a ++ clientFields b) := by
    unfold encodeClient at h ⊢
    rw [← enc_append] at h ⊢
    exact parse_short ((numbered_client a).1.append (numbered_client b).1) h
  rw [List.length_append] at h
  have ha : (encodeClient a).length < 2 ^ 31 - 16 := by omega
  have hb : (encodeClient b).length < 2 ^ 31 - 16 := by omega
  have hs := subMsg_append (subMsg_client ha) (subMsg_client hb)
  have hg : getRep 1 (clientFields a ++ clientFields b) = [] ↔ a = .other ∧ b = .other := by
    rw [getRep_append]
    cases a <;> cases b <;> simp [clientFields, getRep_msgField]
  have hpk : ∀ m : ClientRoundOne, m.publicKey = [] → getRep 1 (clientRoundOneFields m) = [] := by
    intro m hm
    simp only [clientRoundOneFields, getRep_append, getRep_bytesField, getRep_setField, hm]
    by_cases h2 : m.encryptedSet = [] <;> by_cases h3 : m.reencryptedSet = [] <;> simp [h2, h3]
  have hone : ∀ m : ClientRoundOne, (encodeClient (.roundOne m)).length < 2 ^ 31 - 16 →
      clientRoundOneOf (clientRoundOneFields m) = some m := by
    intro m hm
    unfold encodeClient at hm
    have h1 := msgField_length 1 (msgField 2 (clientRoundOneFields m))
    have h2 := msgField_length 2 (clientRoundOneFields m)
    simp only [clientFields] at hm
    exact clientRoundOneOf_fields (by omega)
  unfold decodeClient
  rw [hp]
  simp only []
  rw [hs]
  by_cases hab : a = .other ∧ b = .other
  · rw [if_pos (hg.2 hab), hab.1, hab.2]; rfl
  rw [if_neg fun e => hab (hg.1 e)]
  simp only []
  rw [addAll_append, addAll_client ha, Option.bind_some, addAll_client hb]
  cases a with
  | other =>
    cases b with
    | other => simp at hab
    | empty => rfl
    | start => rfl
    | roundOne m => simp [oneofAfter, hone m hb, mergeClient]
  | empty =>
    cases b with
    | other => rfl
    | empty => rfl
    | start => rfl
    | roundOne m => simp [oneofAfter, hone m hb, mergeClient]
  | start =>
    cases b with
    | other => rfl
    | empty => rfl
    | start => rfl
    | roundOne m => simp [oneofAfter, hone m hb, mergeClient]
  | roundOne m' =>
    cases b with
    | other => simp [oneofAfter, hone m' ha, mergeClient]
    | empty => simp [oneofAfter, hone m' ha, mergeClient]
    | start => rfl
    | roundOne m =>
      simp [oneofAfter, mergeClient,
        clientRoundOneOf_append (hone m' ha) (hone m hb) (hpk m)]

example : decodeClient (encodeClient (.roundOne ⟨[7], [⟨[1], []⟩], []⟩) ++
      encodeClient (.roundOne ⟨[], [⟨[2], [3]⟩], [⟨[4], []⟩]⟩)) =
    some (.roundOne ⟨[7], [⟨[1], []⟩, ⟨[2], [3]⟩], [⟨[4], []⟩]⟩) := by decide

/-! ### C85 -/

variable {G : Type} [AddCommGroup G] [DecidableEq G]

/-- A call of the client either sends nothing or sends one message and returns the sink's
status. -/
theorem Client.handle_cases (c : Client G) (k : ClientRand) (m : ServerMsg) :
    (∃ c' st, ∀ sink, c.handle k sink m = ⟨c', [], st⟩) ∨
    ∃ c' x, ∀ sink, c.handle k sink m = ⟨c', [x], sink x⟩ := by
  unfold Client.handle
  by_cases hf : c.finished = true
  · simp [hf]
  simp only [hf, Bool.false_eq_true, if_false]
  cases m with
  | other => exact .inl ⟨_, _, fun _ => rfl⟩
  | empty => exact .inl ⟨_, _, fun _ => rfl⟩
  | roundTwo m =>
    refine .inl ?_
    simp only []
    cases c.decryptSum m <;> exact ⟨_, _, fun _ => rfl⟩
  | roundOne set =>
    simp only []
    obtain ⟨c', r⟩ := c.reEncryptSet k set
    cases r with
    | ok x => exact .inr ⟨_, _, fun _ => rfl⟩
    | err e => exact .inl ⟨_, _, fun _ => rfl⟩
    | crash => exact .inl ⟨_, _, fun _ => rfl⟩
    | ub => exact .inl ⟨_, _, fun _ => rfl⟩

/-- A connection that, call by call, either fails or behaves like another one. -/
theorem run_refines {σ : Type} (N W : Net σ)
    (h : ∀ st m, (W.call st m).2.1 = false ∨ W.call st m = N.call st m) (net0 : σ)
    (data : Res (List Bytes × List Int)) (mk : List Bytes → List Int → Res (Client G))
    (k1 k2 : ClientRand) :
    (∃ x, executeProtocol W net0 data mk k1 k2 = .ok x ∧ x.code = 1 ∧ x.printed = none) ∨
    executeProtocol W net0 data mk k1 k2 = executeProtocol N net0 data mk k1 k2 := by
  unfold executeProtocol
  cases data with
  | err e => exact .inr rfl
  | crash => exact .inr rfl
  | ub => exact .inr rfl
  | ok d =>
    obtain ⟨els, vals⟩ := d
    simp only []
    cases hmk : mk els vals with
    | err e => exact .inr rfl
    | crash => exact .inr rfl
    | ub => exact .inr rfl
    | ok c =>
      simp only [Res.ok_bind, Client.startProtocol, Net.after]
      rcases h net0 .start with hf | he
      · left
        simp only [Net.sendStatus, hf, Bool.false_eq_true, if_false]
        exact ⟨_, rfl, rfl, rfl⟩
      have hs : W.sendStatus ⟨net0, .other⟩ .start = N.sendStatus ⟨net0, .other⟩ .start := by
        simp only [Net.sendStatus, he]
      rw [hs, he]
      cases N.sendStatus ⟨net0, .other⟩ .start with
      | err e => exact .inr rfl
      | crash => exact .inr rfl
      | ub => exact .inr rfl
      | ok u =>
        simp only []
        generalize (N.call net0 ClientMsg.start).1 = net1
        generalize (N.call net0 ClientMsg.start).2.2 = msg1
        rcases c.handle_cases k1 msg1 with ⟨c1, st1, h1⟩ | ⟨c1, x1, h1⟩
        · simp only [h1, Net.after]
          cases st1 with
          | err e => exact .inr rfl
          | crash => exact .inr rfl
          | ub => exact .inr rfl
          | ok u =>
            simp only []
            rcases c1.handle_cases k2 msg1 with ⟨c2, st2, h2⟩ | ⟨c2, x2, h2⟩
            · simp only [h2, Net.after]
              exact .inr trivial
            · simp only [h2, Net.after]
              rcases h net1 x2 with hf | he
              · left
                simp only [Net.sendStatus, hf, Bool.false_eq_true, if_false]
                exact ⟨_, rfl, rfl, rfl⟩
              · right
                simp only [Net.sendStatus, he]
        · simp only [h1, Net.after]
          rcases h net1 x1 with hf | he
          · left
            simp only [Net.sendStatus, hf, Bool.false_eq_true, if_false]
            exact ⟨_, rfl, rfl, rfl⟩
          simp only [Net.sendStatus, he]
          cases hb : (N.call net1 x1).2.1 with
          | false => right; simp
          | true =>
            simp only [if_true]
            generalize (N.call net1 x1).1 = net2
            generalize (N.call net1 x1).2.2 = msg2
            rcases c1.handle_cases k2 msg2 with ⟨c2, st2, h2⟩ | ⟨c2, x2, h2⟩
            · simp only [h2]
              exact .inr trivial
            · simp only [h2, Net.sendStatus]
              rcases h net2 x2 with hf | he
              · left
                simp only [hf, Bool.false_eq_true, if_false]
                exact ⟨_, rfl, rfl, rfl⟩
              · right
                simp only [he]

theorem wireNet_call {σ : Type} (limit : Nat) (hl : limit < 2 ^ 31 - 16) (N : Net σ)
    (hN : ∀ st m, (encodeClient m).length ≤ limit → ∀ r, (N.call st m).2.2 = .roundTwo r →
      -2 ^ 63 ≤ r.size ∧ r.size < 2 ^ 63) (st : σ) (m : ClientMsg) :
    ((wireNet limit N).call st m).2.1 = false ∨
      (wireNet limit N).call st m = N.call st m ∧ (encodeClient m).length ≤ limit ∧
        (encodeServer (N.call st m).2.2).length ≤ limit := by
  unfold wireNet
  simp only []
  by_cases h1 : limit < (encodeClient m).length
  · simp [h1]
  rw [if_neg h1, decodeClient_encode (by omega)]
  simp only []
  have h2 := hN st m (by omega)
  generalize N.call st m = y at h2
  obtain ⟨st', ok, r⟩ := y
  cases ok with
  | false => exact .inl rfl
  | true =>
    simp only []
    by_cases h3 : limit < (encodeServer r).length
    · simp [h3]
    rw [if_neg h3, decodeServer_encode (m := r) (by omega) h2]
    exact .inr ⟨rfl, by omega, by omega⟩

/-- **C85**, no wrong answers.  Over a connection with a message limit below 2 GB, for any
peer: the client program either exits with 1 and prints nothing, or it does exactly what it
does when messages are handed over as objects. -/
theorem C85_no_wrong_answer {σ : Type} (limit : Nat) (hl : limit < 2 ^ 31 - 16) (N : Net σ)
    (hN : ∀ st m, (encodeClient m).length ≤ limit → ∀ r, (N.call st m).2.2 = .roundTwo r →
      -2 ^ 63 ≤ r.size ∧ r.size < 2 ^ 63)
    (net0 : σ) (data : Res (List Bytes × List Int))
    (mk : List Bytes → List Int → Res (Client G)) (k1 k2 : ClientRand) :
    (∃ x, executeProtocol (wireNet limit N) net0 data mk k1 k2 = .ok x ∧ x.code = 1 ∧
      x.printed = none) ∨
    executeProtocol (wireNet limit N) net0 data mk k1 k2 = executeProtocol N net0 data mk k1 k2 :=
  run_refines N (wireNet limit N)
    (fun st m => (wireNet_call limit hl N hN st m).imp_right And.left) net0 data mk k1 k2

/-! Sizes. -/

theorem lenField_length_ge (n : Nat) (b : Bytes) : b.length + 2 ≤ (Field.len n b).enc.length := by
  have h1 := varint_length_pos (n * 8 + 2)
  have h2 := varint_length_pos b.length
  simp only [Field.enc, List.length_append]
  omega

theorem lenField_length_le {n : Nat} (hn : n < 15) {b : Bytes} (hb : b.length < 2 ^ 35) :
    (Field.len n b).enc.length ≤ b.length + 6 := by
  have h1 : (Wire.varint (n * 8 + 2)).length ≤ 1 := varint_length_le (by omega) (by norm_num)
  have h2 : (Wire.varint b.length).length ≤ 5 := varint_length_le (by norm_num; omega) (by norm_num)
  simp only [Field.enc, List.length_append]
  omega

theorem bytesField_length_le {n : Nat} (hn : n < 15) {b : Bytes} (hb : b.length < 2 ^ 35) :
    (enc (bytesField n b)).length ≤ b.length + 6 := by
  unfold bytesField
  split
  · simp [enc]
  · rw [enc_cons, enc_nil, List.append_nil]
    exact lenField_length_le hn hb

theorem msgField_length_le {n : Nat} (hn : n < 15) {fs : List Field} {B : Nat}
    (hb : (enc fs).length ≤ B) (hB : B < 2 ^ 35) : (enc (msgField n fs)).length ≤ B + 6 := by
  rw [msgField, enc_cons, enc_nil, List.append_nil]
  exact (lenField_length_le hn (by omega)).trans (by omega)

theorem setFields_length_le {es : List EncElement} {A D : Nat} (hAD : A + D + 12 < 2 ^ 35)
    (h : ∀ e ∈ es, e.element.length ≤ A ∧ e.data.length ≤ D) :
    (enc (setFields es)).length ≤ es.length * (A + D + 18) := by
  induction es with
  | nil => simp [setFields, repMsg, enc]
  | cons e es ih =>
    have h1 := ih fun x hx => h x (by simp [hx])
    obtain ⟨ha, hd⟩ := h e (by simp)
    have e1 : setFields (e :: es) = .len 1 (enc (elementFields e)) :: setFields es := rfl
    have h2 := bytesField_length_le (n := 1) (by norm_num) (b := e.element) (by omega)
    have h3 := bytesField_length_le (n := 2) (by norm_num) (b := e.data) (by omega)
    have h4 : (enc (elementFields e)).length ≤ A + D + 12 := by
      rw [elementFields, enc_append, List.length_append]; omega
    have h5 := lenField_length_le (n := 1) (by norm_num) (b := enc (elementFields e)) (by omega)
    rw [e1, enc_cons, List.length_append, List.length_cons, Nat.add_mul]
    omega

theorem setFields_length_ge {es : List EncElement} {A : Nat} (h : ∀ e ∈ es, A ≤ e.element.length) :
    es.length * (A + 2 + if A = 0 then 0 else 2) ≤ (enc (setFields es)).length := by
  induction es with
  | nil => simp
  | cons e es ih =>
    have h1 := ih fun x hx => h x (by simp [hx])
    have ha := h e (by simp)
    have e1 : setFields (e :: es) = .len 1 (enc (elementFields e)) :: setFields es := rfl
    have h5 := lenField_length_ge 1 (enc (elementFields e))
    have h4 : A + (if A = 0 then 0 else 2) ≤ (enc (elementFields e)).length := by
      split
      · omega
      · have hne : e.element ≠ [] := by
          intro h0; rw [h0] at ha; simp at ha; omega
        have := lenField_length_ge 1 e.element
        rw [elementFields, enc_append, List.length_append, bytesField, if_neg hne, enc_cons, enc_nil,
          List.append_nil]
        omega
    rw [e1, enc_cons, List.length_append, List.length_cons, Nat.add_mul]
    omega

/-- The size of a client message from its parts. -/
theorem roundOne_length_le {m : ClientRoundOne} {K A D A' : Nat} (hpk : m.publicKey.length ≤ K)
    (h1 : ∀ e ∈ m.encryptedSet, e.element.length ≤ A ∧ e.data.length ≤ D)
    (h2 : ∀ e ∈ m.reencryptedSet, e.element.length ≤ A' ∧ e.data.length ≤ 0)
    (hb : K + m.encryptedSet.length * (A + D + 18) + m.reencryptedSet.length * (A' + 18) + 30 <
      2 ^ 35) (hA : A + D + 12 < 2 ^ 35) (hA' : A' + 12 < 2 ^ 35) :
    (encodeClient (.roundOne m)).length ≤
      K + m.encryptedSet.length * (A + D + 18) + m.reencryptedSet.length * (A' + 18) + 30 := by
  have f1 := setFields_length_le hA h1
  have f2 := setFields_length_le (A := A') (D := 0) (by omega) h2
  simp only [Nat.add_zero] at f2
  have g : ∀ {n B : Nat} {es : List EncElement}, n < 15 → (enc (setFields es)).length ≤ B →
      B < 2 ^ 35 → (enc (setField n es)).length ≤ B + 6 := by
    intro n B es hn h1 h2
    unfold setField
    split
    · simp [enc]
    · exact msgField_length_le hn h1 h2
  have g1 := g (n := 2) (by norm_num) f1 (by omega)
  have g2 := g (n := 3) (by norm_num) f2 (by omega)
  have g3 := bytesField_length_le (n := 1) (by norm_num) (b := m.publicKey) (by omega)
  have g4 : (enc (clientRoundOneFields m)).length ≤
      K + m.encryptedSet.length * (A + D + 18) + m.reencryptedSet.length * (A' + 18) + 18 := by
    rw [clientRoundOneFields, enc_append, enc_append, List.length_append, List.length_append]
    omega
  have g5 := msgField_length_le (n := 2) (by norm_num) g4 (by omega)
  have g6 := msgField_length_le (n := 1) (by norm_num) g5 (by omega)
  exact g6.trans (by omega)

theorem roundOne_length_ge (m : ClientRoundOne) {A : Nat}
    (h : ∀ e ∈ m.encryptedSet, A ≤ e.element.length) :
    m.encryptedSet.length * (A + 2 + if A = 0 then 0 else 2) ≤ (encodeClient (.roundOne m)).length := by
  have h1 := setFields_length_ge h
  have h2 := msgField_length 1 (msgField 2 (clientRoundOneFields m))
  have h3 := msgField_length 2 (clientRoundOneFields m)
  have h4 : (enc (setFields m.encryptedSet)).length ≤ (enc (clientRoundOneFields m)).length := by
    rw [clientRoundOneFields, enc_append, enc_append, List.length_append, List.length_append]
    by_cases he : m.encryptedSet = []
    · rw [he]; simp [setFields, repMsg, enc]
    · have := setField_length (n := 2) he
      omega
  show _ ≤ (enc (msgField 1 (msgField 2 (clientRoundOneFields m)))).length
  omega

theorem setIntersectionLoop_length : ∀ (fuel : Nat) (as bs : List EncElement),
    (setIntersectionLoop fuel as bs).length ≤ as.length
  | 0, _, _ => by simp [setIntersectionLoop]
  | _ + 1, [], _ => by simp [setIntersectionLoop]
  | _ + 1, _ :: _, [] => by simp [setIntersectionLoop]
  | fuel + 1, a :: as, b :: bs => by
    have h1 := setIntersectionLoop_length fuel as (b :: bs)
    have h2 := setIntersectionLoop_length fuel (a :: as) bs
    have h3 := setIntersectionLoop_length fuel as bs
    simp only [List.length_cons] at h2
    simp only [setIntersectionLoop]
    split
    · simp; omega
    · split
      · simp; omega
      · simp; omega

theorem server_reEncryptLoop_length (K : EcCipher G) : ∀ (es rs : List EncElement),
    Server.reEncryptLoop K es = .ok rs → rs.length = es.length
  | [], rs, h => by cases h; rfl
  | e :: es, rs, h => by
    simp only [Server.reEncryptLoop, Res.bind_eq_ok, Res.pure_eq, Res.ok.injEq] at h
    obtain ⟨r, -, rest, h2, rfl⟩ := h
    simp [server_reEncryptLoop_length K es rest h2]

/-- The size this project's server reports fits `int64` when the request was below the limit. -/
theorem serviceNet_size (rnds : Nat → ServerRand) (hr : ∀ i, (rnds i).Ok) (limit : Nat)
    (hl : limit < 2 ^ 31 - 16) (st : Server G × Nat) (m : ClientMsg)
    (hm : (encodeClient m).length ≤ limit) (r : ServerRoundTwo)
    (h : ((serviceNet rnds).call st m).2.2 = .roundTwo r) : -2 ^ 63 ≤ r.size ∧ r.size < 2 ^ 63 := by
  have h0 : (rpcHandle (st.1.prog (rnds st.2) m)).2 = .roundTwo r := by
    rw [← h]
    unfold serviceNet
    simp only []
    split <;> simp [*]
  rcases st.1.prog_faithful (rnds st.2) m accept with ⟨s, hp, -, -⟩ | ⟨x, hp, hsent, -⟩
  · rw [hp] at h0; cases h0
  rw [hp] at h0
  have hx : x = .roundTwo r := h0
  subst hx
  unfold Server.handle at hsent
  by_cases hf : st.1.finished = true
  · simp [hf] at hsent
  simp only [hf, Bool.false_eq_true, if_false] at hsent
  cases m with
  | other => simp at hsent
  | empty => simp at hsent
  | start =>
    simp only [] at hsent
    generalize st.1.encryptSet (rnds st.2) = y at hsent
    obtain ⟨s', r'⟩ := y
    cases r' <;> simp at hsent
  | roundOne m =>
    simp only [] at hsent
    cases hc : st.1.computeIntersection (rnds st.2) m with
    | err e => simp [hc] at hsent
    | crash => simp [hc] at hsent
    | ub => simp [hc] at hsent
    | ok r' =>
      simp only [hc, List.cons.injEq, ServerMsg.roundTwo.injEq, and_true] at hsent
      subst hsent
      unfold Server.computeIntersection at hc
      cases hcip : st.1.cipher with
      | none => simp [hcip] at hc
      | some K =>
        simp only [hcip, Res.bind_eq_ok, Res.pure_eq, Res.ok.injEq] at hc
        obtain ⟨pk, -, cs, hcs, z, -, bs, -, rfl⟩ := hc
        have h1 := setIntersectionLoop_length (((rnds st.2).sortClient cs).length +
          ((rnds st.2).sortServer m.reencryptedSet).length + 1) ((rnds st.2).sortClient cs)
          ((rnds st.2).sortServer m.reencryptedSet)
        rw [((hr st.2).sortClient.perm cs).length_eq, server_reEncryptLoop_length K _ _ hcs] at h1
        have h2 := roundOne_length_ge m (A := 0) (by simp)
        simp only [if_true] at h2
        have h3 : (setIntersection ((rnds st.2).sortClient cs)
            ((rnds st.2).sortServer m.reencryptedSet)).length ≤ m.encryptedSet.length := by
          rw [setIntersection, ((hr st.2).sortClient.perm cs).length_eq,
            server_reEncryptLoop_length K _ _ hcs]
          exact h1
        constructor
        · show -2 ^ 63 ≤ ((setIntersection _ _).length : Int)
          omega
        · show ((setIntersection _ _).length : Int) < 2 ^ 63
          omega

theorem encrypt_point {K : EcCipher G} {a bs : Bytes} (h : K.encrypt a = .ok bs) :
    ∃ P, K.group.point2oct P = some bs := by
  simp only [EcCipher.encrypt, EcCipher.encryptPoint, Res.bind_eq_ok] at h
  obtain ⟨P, -, Q, -, h⟩ := h
  unfold EcGroup.toBytesCompressed at h
  refine ⟨Q, ?_⟩
  cases hq : K.group.point2oct Q with
  | none => simp [hq] at h
  | some b => simp only [hq, Res.ok.injEq] at h; rw [h]

theorem reEncrypt_encoded {K : EcCipher G} {a bs : Bytes} (h : K.reEncrypt a = .ok bs) :
    ∃ P, K.group.point2oct P = some bs := by
  simp only [EcCipher.reEncrypt, EcCipher.encryptPoint, Res.bind_eq_ok] at h
  obtain ⟨P, -, Q, -, h⟩ := h
  unfold EcGroup.toBytesCompressed at h
  refine ⟨Q, ?_⟩
  cases hq : K.group.point2oct Q with
  | none => simp [hq] at h
  | some b => simp only [hq, Res.ok.injEq] at h; rw [h]

theorem server_encryptLoop_mem (K : EcCipher G) : ∀ (as : List Bytes) (rs : List EncElement),
    Server.encryptLoop K as = .ok rs → rs.length = as.length ∧
      ∀ e ∈ rs, (∃ P, K.group.point2oct P = some e.element) ∧ e.data = []
  | [], rs, h => by cases h; simp
  | a :: as, rs, h => by
    simp only [Server.encryptLoop, Res.bind_eq_ok, Res.pure_eq, Res.ok.injEq] at h
    obtain ⟨r, h1, rest, h2, rfl⟩ := h
    obtain ⟨i1, i2⟩ := server_encryptLoop_mem K as rest h2
    refine ⟨by simp [i1], ?_⟩
    intro e he
    rcases List.mem_cons.1 he with rfl | he
    · exact ⟨encrypt_point h1, rfl⟩
    · exact i2 e he

theorem client_reEncryptLoop_mem (K : EcCipher G) : ∀ (as rs : List EncElement),
    Client.reEncryptLoop K as = .ok rs → rs.length = as.length ∧
      ∀ e ∈ rs, (∃ P, K.group.point2oct P = some e.element) ∧ e.data = []
  | [], rs, h => by cases h; simp
  | a :: as, rs, h => by
    simp only [Client.reEncryptLoop, Res.bind_eq_ok, Res.pure_eq, Res.ok.injEq] at h
    obtain ⟨r, h1, rest, h2, rfl⟩ := h
    obtain ⟨i1, i2⟩ := client_reEncryptLoop_mem K as rest h2
    refine ⟨by simp [i1], ?_⟩
    intro e he
    rcases List.mem_cons.1 he with rfl | he
    · exact ⟨reEncrypt_encoded h1, rfl⟩
    · exact i2 e he

theorem client_encryptLoop_mem (K : EcCipher G) (sk : PrivatePaillier) (vals : List Int)
    (draws : Nat → Int × Int) : ∀ (as : List Bytes) (i : Nat) (rs : List EncElement),
    Client.encryptLoop K sk vals draws i as = .ok rs → rs.length = as.length ∧
      ∀ e ∈ rs, (∃ P, K.group.point2oct P = some e.element) ∧
        ∃ v j c, sk.encrypt v (draws j).1 (draws j).2 = .ok c ∧ BN.toBytes c = .ok e.data
  | [], _, rs, h => by cases h; simp
  | a :: as, i, rs, h => by
    simp only [Client.encryptLoop, Res.bind_eq_ok] at h
    obtain ⟨r, h1, h⟩ := h
    cases hv : vals[i]? with
    | none => simp [hv] at h
    | some v =>
      simp only [hv, Res.bind_eq_ok, Res.pure_eq, Res.ok.injEq] at h
      obtain ⟨c, h2, cb, h3, rest, h4, rfl⟩ := h
      obtain ⟨i1, i2⟩ := client_encryptLoop_mem K sk vals draws as (i + 1) rest h4
      refine ⟨by simp [i1], ?_⟩
      intro e he
      rcases List.mem_cons.1 he with rfl | he
      · exact ⟨encrypt_point h1, v, i, c, h2, h3⟩
      · exact i2 e he

theorem honestRun_steps {c c' : Client G} {s s' : Server G} {r1 r2 : ServerRand}
    {k1 k2 : ClientRand} (h : honestRun c s r1 r2 k1 k2 = some (c', s')) :
    ∃ s1 m1 c1 m2 m3, s.handle r1 accept .start = ⟨s1, [m1], .ok ()⟩ ∧
      c.handle k1 accept m1 = ⟨c1, [m2], .ok ()⟩ ∧
      s1.handle r2 accept m2 = ⟨s', [m3], .ok ()⟩ ∧
      c1.handle k2 accept m3 = ⟨c', [], .ok ()⟩ := by
  unfold honestRun at h
  simp only [Client.startProtocol] at h
  have ha : accept ClientMsg.start = .ok () := rfl
  rw [ha] at h
  simp only [] at h
  split at h
  swap
  · cases h
  rename_i s1 m1 e1
  split at h
  swap
  · cases h
  rename_i c1 m2 e2
  split at h
  swap
  · cases h
  rename_i s2 m3 e3
  split at h
  swap
  · cases h
  rename_i c2 e4
  cases h
  exact ⟨s1, m1, c1, m2, m3, e1, e2, e3, e4⟩

/-- What an accepting call of the server looks like. -/
theorem Server.handle_start_ok {s s1 : Server G} {r : ServerRand} {m : ServerMsg}
    (h : s.handle r accept .start = ⟨s1, [m], .ok ()⟩) :
    ∃ K set, s1.cipher = some K ∧ EcCipher.createWithNewKey s.curve .sha256 r.keyWord = .ok K ∧
      Server.encryptLoop K s.inputs = .ok set ∧ m = .roundOne set ∧ s1 = { s with cipher := some K } := by
  unfold Server.handle at h
  by_cases hf : s.finished = true
  · simp [hf] at h
  simp only [hf, Bool.false_eq_true, if_false, Server.encryptSet] at h
  cases hc : s.cipher with
  | some K => simp [hc] at h
  | none =>
    simp only [hc] at h
    cases hk : EcCipher.createWithNewKey s.curve .sha256 r.keyWord with
    | err e => simp [hk] at h
    | crash => simp [hk] at h
    | ub => simp [hk] at h
    | ok K =>
      simp only [hk] at h
      cases hl : Server.encryptLoop K s.inputs with
      | err e => simp [hl] at h
      | crash => simp [hl] at h
      | ub => simp [hl] at h
      | ok set =>
        simp only [hl, Out.mk.injEq, List.cons.injEq, and_true] at h
        obtain ⟨rfl, rfl, -⟩ := h
        exact ⟨K, set, rfl, rfl, hl, rfl, by simp [Bool.eq_false_iff.2 hf]⟩

theorem Client.handle_roundOne_sent {c c1 : Client G} {k : ClientRand} {sink : ClientMsg → Res Unit}
    {set : List EncElement} {m : ClientMsg} {st : Res Unit}
    (h : c.handle k sink (.roundOne set) = ⟨c1, [m], st⟩) :
    ∃ sk pk own re, PrivatePaillier.new c.cfg c.p c.q 2 = .ok sk ∧ BN.toBytes (c.p * c.q) = .ok pk ∧
      Client.encryptLoop c.cipher sk c.values k.draws 0 c.elements = .ok own ∧
      Client.reEncryptLoop c.cipher set = .ok re ∧ m = .roundOne ⟨pk, own, k.sort re⟩ := by
  unfold Client.handle at h
  by_cases hf : c.finished = true
  · simp [hf] at h
  simp only [hf, Bool.false_eq_true, if_false, Client.reEncryptSet] at h
  cases hsk : PrivatePaillier.new c.cfg c.p c.q 2 with
  | err e => simp [hsk] at h
  | crash => simp [hsk] at h
  | ub => simp [hsk] at h
  | ok sk =>
    simp only [hsk] at h
    split at h
    · rename_i c' r heq
      simp only [Prod.mk.injEq, Res.bind_eq_ok, Res.pure_eq, Res.ok.injEq] at heq
      obtain ⟨-, pk, h1, own, h2, re, h3, rfl⟩ := heq
      simp only [Out.mk.injEq, List.cons.injEq, and_true] at h
      exact ⟨sk, pk, own, re, rfl, h1, h2, h3, h.2.1.symm⟩
    · simp at h
    · simp at h
    · simp at h

theorem Server.handle_roundOne_ok {s s1 : Server G} {r : ServerRand} {m : ClientRoundOne}
    {x : ServerMsg} (h : s.handle r accept (.roundOne m) = ⟨s1, [x], .ok ()⟩) :
    ∃ t, s.computeIntersection r m = .ok t ∧ x = .roundTwo t := by
  unfold Server.handle at h
  by_cases hf : s.finished = true
  · simp [hf] at h
  simp only [hf, Bool.false_eq_true, if_false] at h
  cases hc : s.computeIntersection r m with
  | err e => simp [hc] at h
  | crash => simp [hc] at h
  | ub => simp [hc] at h
  | ok t =>
    simp only [hc, Out.mk.injEq, List.cons.injEq, and_true] at h
    exact ⟨t, rfl, h.2.1.symm⟩

theorem natToBytes_le {c : Int} {N D : Nat} (h0 : 0 ≤ c) (h1 : c < (N : Int)) (hN : N ≤ 256 ^ D)
    {bs : Bytes} (h : BN.toBytes c = .ok bs) : bs.length ≤ D := by
  rw [BN.toBytes_of_nonneg h0] at h
  cases h
  exact BN.natToBytes_length_le (by omega)

theorem sum_lt (pk : PublicPaillier) (hm : 0 < pk.modulus) (l : List EncElement) : ∀ z : Int,
    0 ≤ z → z < pk.modulus →
    0 ≤ l.foldl (fun acc e => pk.add acc (BN.ofBytes e.data)) z ∧
      l.foldl (fun acc e => pk.add acc (BN.ofBytes e.data)) z < pk.modulus := by
  induction l with
  | nil => intro z h1 h2; exact ⟨h1, h2⟩
  | cons e l ih =>
    intro z _ _
    exact ih _ (Int.emod_nonneg _ (ne_of_gt hm)) (Int.emod_lt_of_pos _ hm)

/-- **C85**, success.  With the message sizes below the limit - `A` bytes for an encoded point,
`D` bytes for a ciphertext - the two programs over the wire compute the size and the sum of
the intersection. -/
theorem C85_end_to_end {E : EcGroup G} {els : List Bytes} {vals : List Int}
    {inputs : List Bytes} {p q : Nat} (h : Setup E els vals inputs p q) (cfg cfg' : ExpCfg)
    (w : Nat) (rnds : Nat → ServerRand) (hr : ∀ i, (rnds i).Ok) (k1 k2 : ClientRand) (hk1 : k1.Ok)
    (hnc : els.Nodup)
    (hsmall : (((els.zip vals).filter fun t => decide (t.1 ∈ inputs)).map Prod.snd).sum <
      ((p * q : Nat) : Int) ^ 2)
    (h64 : (((els.zip vals).filter fun t => decide (t.1 ∈ inputs)).map Prod.snd).sum < 2 ^ 64)
    (limit A D : Nat) (hl : limit < 2 ^ 31 - 16) (hA0 : A < 2 ^ 31)
    (hA : ∀ P bs, E.point2oct P = some bs → bs.length ≤ A) (hD : (p * q) ^ 3 ≤ 256 ^ D)
    (hfit : D + els.length * (A + D + 18) + inputs.length * (A + 18) + 30 ≤ limit) :
    ∃ x, executeProtocol (wireNet limit (serviceNet rnds)) (Server.init cfg' (.ok E) inputs, 0)
        (.ok (els, vals)) (fun els vals => Client.init cfg (.ok E) els vals p q w) k1 k2 = .ok x ∧
      x.code = 0 ∧
      x.printed = some (((els.filter fun a => decide (a ∈ inputs)).length : Int),
        (((els.zip vals).filter fun t => decide (t.1 ∈ inputs)).map Prod.snd).sum.toNat) := by
  obtain ⟨K, hK, hinit⟩ := Client.init_ok h.lawful cfg els vals p q w
  obtain ⟨c', s', hrun, hf, hf', hsize, hsum, hprint⟩ := C01_intersection_sum h cfg cfg' w _ hinit
    (rnds 0) (rnds 1) k1 k2 (hr 0) (hr 1) hk1 hnc hsmall
  obtain ⟨s1, m1, c1, m2, m3, e1, e2, e3, e4⟩ := honestRun_steps hrun
  have gK := hK.good h.lawful
  obtain ⟨hE, -, -, -, -, sp, sq, gp, gq, p2, q2, hpq⟩ := h
  have Npos : 0 < p * q := Nat.mul_pos sp.1.pos sq.1.pos
  -- the first reply
  obtain ⟨Ks, set, hs1, hKs, hset, rfl, -⟩ := Server.handle_start_ok e1
  have gKs : Ks.group = E := by
    obtain ⟨K', hK', hK''⟩ := createWithNewKey_ok hE (rnds 0).keyWord
    have : EcCipher.createWithNewKey (.ok E) .sha256 (rnds 0).keyWord = .ok Ks := hKs
    rw [hK'] at this
    cases this
    exact (hK''.good hE).group
  obtain ⟨l1, b1⟩ := server_encryptLoop_mem Ks _ _ hset
  have l1 : set.length = inputs.length := l1
  -- the request
  obtain ⟨sk, pkb, own, re, hsk, hpkb, hown, hre, rfl⟩ := Client.handle_roundOne_sent e2
  obtain ⟨l2, b2⟩ := client_encryptLoop_mem _ _ _ _ _ _ _ hown
  obtain ⟨l3, b3⟩ := client_reEncryptLoop_mem _ _ _ hre
  have l2 : own.length = els.length := l2
  have hsk : PrivatePaillier.new cfg p q 2 = .ok sk := hsk
  have hpkb : BN.toBytes ((p : Int) * q) = .ok pkb := hpkb
  have hN3 : ((p * q : Nat) : Int) ≤ (((p * q) ^ 3 : Nat) : Int) := by
    exact_mod_cast Nat.le_self_pow (by norm_num) _
  have lpk : pkb.length ≤ D := by
    have : (p : Int) * q = ((p * q : Nat) : Int) := by push_cast; ring
    rw [this] at hpkb
    by_cases hone : p * q = 1
    · have := sp.1.one_lt
      have := Nat.mul_le_mul sp.1.two_le sq.1.two_le
      omega
    · refine natToBytes_le (N := (p * q) ^ 3) (by omega) ?_ hD hpkb
      have : p * q < (p * q) ^ 3 := lt_self_pow₀ (by omega) (by norm_num)
      exact_mod_cast this
  obtain ⟨⟨pk0, hpk0⟩, -⟩ := C11_keys_exist cfg p q 2 1 sp sq hpq p2 q2 gp gq (by norm_num)
  have hct : ∀ {v rp rq c : Int}, 0 ≤ rp → 0 ≤ rq → sk.encrypt v rp rq = .ok c →
      0 ≤ c ∧ c < (((p * q) ^ 3 : Nat) : Int) := by
    intro v rp rq c hp hq hc
    have := made_ct (x := 1) (by simp) (PublicPaillier.new_good hpk0)
      (PrivatePaillier.new_good (by norm_num) hsk) (.privateEncrypt hp hq hc)
    exact ⟨this.nonneg, by have := this.lt; exact_mod_cast this⟩
  have hown' : ∀ e ∈ own, e.element.length ≤ A ∧ e.data.length ≤ D := by
    intro e he
    obtain ⟨⟨P, hP⟩, v, j, c, hc, hcb⟩ := b2 e he
    have hP : K.group.point2oct P = some e.element := hP
    rw [gK.group] at hP
    obtain ⟨h1, h2⟩ := hct (hk1.draws j).1 (hk1.draws j).2 hc
    exact ⟨hA P _ hP, natToBytes_le h1 h2 hD hcb⟩
  have hre' : ∀ e ∈ k1.sort re, e.element.length ≤ A ∧ e.data.length ≤ 0 := by
    intro e he
    rw [(hk1.sort.perm re).mem_iff] at he
    obtain ⟨⟨P, hP⟩, hd⟩ := b3 e he
    have hP : K.group.point2oct P = some e.element := hP
    rw [gK.group] at hP
    exact ⟨hA P _ hP, by simp [hd]⟩
  have lre : (k1.sort re).length = inputs.length := by
    rw [(hk1.sort.perm re).length_eq, l3, l1]
  have hm2 : (encodeClient (.roundOne ⟨pkb, own, k1.sort re⟩)).length ≤ limit := by
    have := roundOne_length_le (m := ⟨pkb, own, k1.sort re⟩) (A' := A) lpk hown' hre'
      (by simp only [l2, lre]; omega) (by omega) (by omega)
    simp only [l2, lre] at this
    omega
  have hm1 : (encodeServer (.roundOne set)).length ≤ limit := by
    have f := setFields_length_le (A := A) (D := 0) (es := set) (by omega) (by
      intro e he
      obtain ⟨⟨P, hP⟩, hd⟩ := b1 e he
      rw [gKs] at hP
      exact ⟨hA P _ hP, by simp [hd]⟩)
    rw [l1] at f
    simp only [Nat.add_zero] at f
    have g : (enc (setField 1 set)).length ≤ inputs.length * (A + 18) + 6 := by
      unfold setField
      split
      · simp [enc]
      · exact msgField_length_le (by norm_num) f (by omega)
    have g2 := msgField_length_le (n := 1) (by norm_num) g (by omega)
    have g3 := msgField_length_le (n := 1) (by norm_num) g2 (by omega)
    exact g3.trans (by omega)
  -- the second reply
  obtain ⟨t, ht, rfl⟩ := Server.handle_roundOne_ok e3
  have lsum : t.encryptedSum.length ≤ D := by
    unfold Server.computeIntersection at ht
    rw [hs1] at ht
    simp only [Res.bind_eq_ok, Res.pure_eq, Res.ok.injEq] at ht
    obtain ⟨pk, hpk, cs, -, z, hz, bs, hbs, rfl⟩ := ht
    have eN : BN.ofBytes pkb = ((p * q : Nat) : Int) := by
      have : (p : Int) * q = ((p * q : Nat) : Int) := by push_cast; ring
      rw [this, BN.toBytes_of_nonneg (by omega)] at hpkb
      cases hpkb
      rw [BN.ofBytes_natToBytes]
      omega
    rw [eN] at hpk
    have Gp := PublicPaillier.new_good hpk
    have hmod : pk.modulus = (((p * q) ^ 3 : Nat) : Int) := by
      rw [Gp.hmod]; push_cast; ring
    have hmpos : 0 < pk.modulus := by
      rw [hmod]; exact_mod_cast pow_pos Npos 3
    have hz' : 0 ≤ z ∧ z < pk.modulus := by
      unfold PublicPaillier.encrypt PublicPaillier.encryptUsingGeneratorAndRand at hz
      split at hz
      · cases hz
      split at hz
      · cases hz
      split at hz
      · cases hz
      simp only [Res.bind_eq_ok, Res.pure_eq, Res.ok.injEq] at hz
      obtain ⟨g, -, rfl⟩ := hz
      exact ⟨Int.emod_nonneg _ (ne_of_gt hmpos), Int.emod_lt_of_pos _ hmpos⟩
    obtain ⟨t1, t2⟩ := sum_lt pk hmpos (setIntersection ((rnds 1).sortClient cs)
      ((rnds 1).sortServer (k1.sort re))) z hz'.1 hz'.2
    rw [hmod] at t2
    exact natToBytes_le t1 t2 hD hbs
  have hm3 : (encodeServer (.roundTwo t)).length ≤ limit := by
    have g0 : (enc (int64Field 1 t.size)).length ≤ 11 := by
      unfold int64Field
      split
      · simp [enc]
      · rw [enc_cons, enc_nil, List.append_nil]
        simp only [Field.enc, List.length_append]
        have h1 : (Wire.varint (1 * 8)).length ≤ 1 := varint_length_le (by norm_num) (by norm_num)
        have h2 : (Wire.varint (t.size % 2 ^ 64).toNat).length ≤ 10 :=
          varint_length_le (by omega) (by norm_num)
        omega
    have g1 := bytesField_length_le (n := 2) (by norm_num) (b := t.encryptedSum) (by omega)
    have g2 : (enc (serverRoundTwoFields t)).length ≤ D + 17 := by
      rw [serverRoundTwoFields, enc_append, List.length_append]; omega
    have g3 := msgField_length_le (n := 2) (by norm_num) g2 (by omega)
    have g4 := msgField_length_le (n := 1) (by norm_num) g3 (by omega)
    exact g4.trans (by omega)
  -- the calls over the wire
  have hcall : ∀ (s : Server G) (i : Nat) (m : ClientMsg) (s1 : Server G) (r : ServerMsg),
      s.handle (rnds i) accept m = ⟨s1, [r], .ok ()⟩ → (encodeClient m).length ≤ limit →
      (encodeServer r).length ≤ limit →
      (wireNet limit (serviceNet rnds)).call (s, i) m = ((s1, i + 1), true, r) := by
    intro s i m s1 r hh hm hr'
    have hp : s.prog (rnds i) m = .send r .ret := by
      unfold Server.prog
      have h' : s.handle (rnds i) (fun _ => .ok ()) m = _ := hh
      rw [h']
    have h' : s.handle (rnds i) (fun _ => .ok ()) m = _ := hh
    have hb : (serviceNet rnds).call (s, i) m = ((s1, i + 1), true, r) := by
      simp only [serviceNet, hp, h']
      rfl
    have hsz := serviceNet_size rnds hr limit hl (s, i) m hm
    rw [hb] at hsz
    simp only [wireNet]
    rw [if_neg (by omega), decodeClient_encode (by omega)]
    simp only [hb]
    rw [if_neg (by omega), decodeServer_encode (m := r) (by omega) hsz]
  have hstart : (encodeClient ClientMsg.start).length ≤ limit := by
    have : (encodeClient ClientMsg.start).length = 4 := by decide
    omega
  have n1 := hcall _ 0 _ _ _ e1 hstart hm1
  have n2 := hcall _ 1 _ _ _ e3 hm2 hm3
  have hp := hprint (hsum ▸ h64)
  simp only [executeProtocol, hinit, Res.ok_bind, Client.startProtocol, Net.sendStatus,
    Net.after, n1, if_true]
  have E2 : ∀ sink : ClientMsg → Res Unit, sink (.roundOne ⟨pkb, own, k1.sort re⟩) = .ok () →
      Client.handle ⟨cfg, els, vals, p, q, K, none, 0, 0, false⟩ k1 sink (.roundOne set) =
        ⟨c1, [.roundOne ⟨pkb, own, k1.sort re⟩], .ok ()⟩ := by
    intro sink hsink
    rw [Client.handle_sink, e2]
    rw [e2]
    intro x hx
    rw [List.mem_singleton] at hx
    subst hx
    exact hsink
  have E4 : ∀ (sink : ClientMsg → Res Unit), c1.handle k2 sink (.roundTwo t) = ⟨c', [], .ok ()⟩ := by
    intro sink
    rw [Client.handle_sink, e4]
    rw [e4]
    simp
  have E2' := E2 ((wireNet limit (serviceNet rnds)).sendStatus ⟨(s1, 0 + 1), .roundOne set⟩) (by
    simp only [Net.sendStatus, n2, if_true])
  simp only [E2', n2, E4, hp]
  exact ⟨_, rfl, rfl, by simp only [hsize, hsum]⟩

/-- **C85**, the limit bites: whoever is at the other end, a client whose identifiers need
more than `limit` bytes in encrypted form never gets a result - with points of at least `A`
bytes, that is already so for `limit / (A + 4)` identifiers and one more. -/
theorem C85_too_many_identifiers {σ : Type} {E : EcGroup G} (hE : E.Lawful) (limit A : Nat)
    (hA0 : 1 ≤ A) (hA : ∀ P bs, E.point2oct P = some bs → A ≤ bs.length) (N : Net σ) (net0 : σ)
    (cfg : ExpCfg) (els : List Bytes) (vals : List Int) (p q : Int) (w : Nat) (k1 k2 : ClientRand)
    (hbig : limit < els.length * (A + 4)) (x : Exit G σ)
    (h : executeProtocol (wireNet limit N) net0 (.ok (els, vals))
      (fun els vals => Client.init cfg (.ok E) els vals p q w) k1 k2 = .ok x) :
    x.code = 1 ∧ x.printed = none := by
  rcases C66_exit_one _ _ _ _ _ _ _ h with ⟨h0, -⟩ | h1
  swap
  · exact h1
  exfalso
  obtain ⟨K, hK, hinit⟩ := Client.init_ok hE cfg els vals p q w
  have gK := hK.good hE
  unfold executeProtocol at h
  simp only [hinit, Res.ok_bind, Client.startProtocol, Net.after] at h
  set W := wireNet limit N with hW
  cases hs : W.sendStatus ⟨net0, .other⟩ .start with
  | err e => simp only [hs, Res.ok.injEq] at h; subst h; simp at h0
  | crash => simp [hs] at h
  | ub => simp [hs] at h
  | ok u =>
    simp only [hs] at h
    generalize (W.call net0 ClientMsg.start).1 = net1 at h
    generalize (W.call net0 ClientMsg.start).2.2 = msg1 at h
    cases msg1 with
    | other => simp [Client.handle] at h; subst h; simp at h0
    | empty => simp [Client.handle] at h; subst h; simp at h0
    | roundTwo m => simp [Client.handle, Client.decryptSum] at h; subst h; simp at h0
    | roundOne set =>
      rcases Client.handle_cases (⟨cfg, els, vals, p, q, K, none, 0, 0, false⟩ : Client G) k1
        (.roundOne set) with ⟨c1, st1, h1⟩ | ⟨c1, x1, h1⟩
      · simp only [h1] at h
        cases st1 with
        | err e => simp only [Res.ok.injEq] at h; subst h; simp at h0
        | crash => simp at h
        | ub => simp at h
        | ok u =>
          -- a call that sends nothing does not succeed
          have h2 := h1 accept
          unfold Client.handle at h2
          simp only [Bool.false_eq_true, if_false] at h2
          split at h2 <;> simp at h2
      · obtain ⟨sk, pk, own, re, -, -, hown, -, rfl⟩ := Client.handle_roundOne_sent (h1 accept)
        simp only [h1] at h
        obtain ⟨l2, b2⟩ := client_encryptLoop_mem _ _ _ _ _ _ _ hown
        have l2 : own.length = els.length := l2
        have hge := roundOne_length_ge ⟨pk, own, k1.sort re⟩ (A := A) (by
          intro e he
          obtain ⟨⟨P, hP⟩, -⟩ := b2 e he
          have hP : K.group.point2oct P = some e.element := hP
          rw [gK.group] at hP
          exact hA P _ hP)
        simp only [l2] at hge
        rw [if_neg (by omega)] at hge
        have : W.sendStatus ⟨net1, .roundOne set⟩ (.roundOne ⟨pk, own, k1.sort re⟩) =
            .err .internal := by
          have hc : (W.call net1 (.roundOne ⟨pk, own, k1.sort re⟩)).2.1 = false := by
            rw [hW]
            simp only [wireNet]
            rw [if_pos (by have : A + 2 + 2 = A + 4 := rfl; rw [this] at hge; omega)]
          simp only [Net.sendStatus, hc, Bool.false_eq_true, if_false]
        simp only [this, Res.ok.injEq] at h
        subst h
        simp at h0

/-- The server of the repository meets the hypothesis of `C85_no_wrong_answer`: the sizes it
reports fit in an `int64`. -/
theorem C85_no_wrong_answer_service (rnds : Nat → ServerRand) (hr : ∀ i, (rnds i).Ok)
    (limit : Nat) (hl : limit < 2 ^ 31 - 16) (st : Server G × Nat)
    (data : Res (List Bytes × List Int)) (mk : List Bytes → List Int → Res (Client G))
    (k1 k2 : ClientRand) :
    (∃ x, executeProtocol (wireNet limit (serviceNet rnds)) st data mk k1 k2 = .ok x ∧
      x.code = 1 ∧ x.printed = none) ∨
    executeProtocol (wireNet limit (serviceNet rnds)) st data mk k1 k2 =
      executeProtocol (serviceNet rnds) st data mk k1 k2 :=
  C85_no_wrong_answer limit hl _ (fun st m hm r h => serviceNet_size rnds hr limit hl st m hm r h)
    st data mk k1 k2

/-- With gRPC's default limit and the 33-byte points of P-256, 113 360 identifiers are too
many. -/
example : grpcLimit < 113360 * (33 + 4) := by decide

/-- The toy run over the wire. -/
example : ∃ x, executeProtocol (wireNet grpcLimit (serviceNet fun _ => toyServerRand))
      (Server.init ⟨false, 64⟩ (.ok toyEc) [[2], [3], [4]], 0) (.ok ([[1], [2], [4]], [5, 9, 2]))
      (fun els vals => Client.init ⟨true, 64⟩ (.ok toyEc) els vals 7 11 5) toyClientRand
      toyClientRand = .ok x ∧ x.code = 0 ∧ x.printed = some (2, 11) := by
  obtain ⟨x, h1, h2, h3⟩ := C85_end_to_end toySetup ⟨true, 64⟩ ⟨false, 64⟩ 5
    (fun _ => toyServerRand) (fun _ => toyServerRand_ok) toyClientRand toyClientRand
    toyClientRand_ok (by decide) (by decide) (by decide) grpcLimit 1 3 (by decide) (by decide)
    (by decide) (by decide) (by decide)
  exact ⟨x, h1, h2, by rw [h3]; decide⟩

/-- The same run with a limit of 14 bytes: the request is too large. -/
example (x) (h : executeProtocol (wireNet 14 (serviceNet fun _ => toyServerRand))
      (Server.init ⟨false, 64⟩ (.ok toyEc) [[2], [3], [4]], 0) (.ok ([[1], [2], [4]], [5, 9, 2]))
      (fun els vals => Client.init ⟨true, 64⟩ (.ok toyEc) els vals 7 11 5) toyClientRand
      toyClientRand = .ok x) : x.code = 1 :=
  (C85_too_many_identifiers toyEc_lawful 14 1 (by decide) (by decide) _ _ _ _ _ _ _ _ _ _ (by decide)
    _ h).1

end PJC.Protocol
