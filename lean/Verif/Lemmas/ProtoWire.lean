import Verif.Model.ProtoWire
import Verif.Lemmas.WireParse
/-
Parsing inverts serializing for the protocol messages; sizes.
-/
namespace PJC.Wire

/-- Well-formed numbers and values. -/
def Numbered (fs : List Field) : Prop :=
  ∀ f ∈ fs, 1 ≤ f.num ∧ f.num < 2 ^ 29 ∧ ∀ n v : Nat, f = .varint n v → v < 2 ^ 64

theorem Numbered.append {a b : List Field} (ha : Numbered a) (hb : Numbered b) :
    Numbered (a ++ b) := fun f hf => (List.mem_append.1 hf).elim (ha f) (hb f)

theorem Numbered.nil : Numbered [] := by simp [Numbered]

theorem Numbered.bytes {n : Nat} (h1 : 1 ≤ n) (h2 : n < 2 ^ 29) (b : Bytes) :
    Numbered (bytesField n b) := by
  unfold bytesField
  split
  · exact .nil
  · intro f hf
    rw [List.mem_singleton] at hf
    subst hf
    exact ⟨h1, h2, by simp⟩

theorem Numbered.int64 {n : Nat} (h1 : 1 ≤ n) (h2 : n < 2 ^ 29) (v : Int) :
    Numbered (int64Field n v) := by
  unfold int64Field
  split
  · exact .nil
  · intro f hf
    rw [List.mem_singleton] at hf
    subst hf
    refine ⟨h1, h2, ?_⟩
    intro n' v' h
    cases h
    omega

theorem Numbered.msg {n : Nat} (h1 : 1 ≤ n) (h2 : n < 2 ^ 29) (fs : List Field) :
    Numbered (msgField n fs) := by
  intro f hf
  rw [msgField, List.mem_singleton] at hf
  subst hf
  exact ⟨h1, h2, by simp⟩

theorem Numbered.repMsg {n : Nat} (h1 : 1 ≤ n) (h2 : n < 2 ^ 29) (ms : List (List Field)) :
    Numbered (repMsg n ms) := by
  intro f hf
  simp only [Wire.repMsg, List.mem_map] at hf
  obtain ⟨m, -, rfl⟩ := hf
  exact ⟨h1, h2, by simp⟩

theorem length_le_enc {fs : List Field} {n : Nat} {b : Bytes} (h : Field.len n b ∈ fs) :
    b.length < (enc fs).length := by
  induction fs with
  | nil => simp at h
  | cons f fs ih =>
    rw [enc_cons, List.length_append]
    rcases List.mem_cons.1 h with rfl | h
    · have := List.length_pos_iff.2 (varint_ne_nil (n * 8 + 2))
      simp only [Field.enc, List.length_append]
      omega
    · have := ih h
      omega

theorem parse_short {fs : List Field} (h : Numbered fs) (hl : (enc fs).length < 2 ^ 31 - 16) :
    parse (enc fs) = some fs := by
  refine parse_enc fun f hf => ?_
  obtain ⟨h1, h2, h3⟩ := h f hf
  cases f with
  | varint n v => exact ⟨h1, h2, h3 n v rfl⟩
  | len n b => exact ⟨h1, h2, (length_le_enc hf).trans hl⟩

theorem varint_length_pos (n : Nat) : 1 ≤ (varint n).length :=
  List.length_pos_iff.2 (varint_ne_nil n)

theorem varint_length_le {n k : Nat} (hn : n < 128 ^ k) (hk : 0 < k) : (varint n).length ≤ k :=
  varintBytes_length_le 10 n k hn hk

end PJC.Wire

namespace PJC.Protocol
open PJC.Wire

@[simp] theorem getRep_nil (k : Nat) : getRep k [] = [] := rfl

theorem getRep_append (k : Nat) (a b : List Field) : getRep k (a ++ b) = getRep k a ++ getRep k b := by
  simp [getRep]

theorem getRep_bytesField (k n : Nat) (b : Bytes) :
    getRep k (bytesField n b) = if b = [] then [] else if n = k then [b] else [] :=
  filterMap_bytes_bytesField k n b

theorem getRep_int64Field (k n : Nat) (v : Int) : getRep k (int64Field n v) = [] :=
  filterMap_bytes_int64Field k n v

theorem getRep_msgField (k n : Nat) (fs : List Field) :
    getRep k (msgField n fs) = if n = k then [enc fs] else [] := by
  by_cases h : n = k <;> simp [getRep, msgField, Field.bytes?, h]

theorem getRep_repMsg (k n : Nat) (ms : List (List Field)) :
    getRep k (repMsg n ms) = if n = k then ms.map enc else [] := by
  induction ms with
  | nil => simp [repMsg, getRep]
  | cons m ms ih =>
    by_cases h : n = k
    · simp only [h, if_true] at ih ⊢
      simpa [repMsg, getRep, Field.bytes?] using ih
    · simp only [h, if_false] at ih ⊢
      simpa [repMsg, getRep, Field.bytes?, h] using ih

theorem getRep_setField (k n : Nat) (es : List EncElement) :
    getRep k (setField n es) =
      if es = [] then [] else if n = k then [enc (setFields es)] else [] := by
  unfold setField
  split
  · rfl
  · rw [getRep_msgField]

theorem parseEach_enc {ms : List (List Field)} (h : ∀ m ∈ ms, parse (enc m) = some m) :
    parseEach (ms.map enc) = some ms := by
  induction ms with
  | nil => rfl
  | cons m ms ih =>
    simp only [List.map_cons, parseEach, h m (by simp), ih fun x hx => h x (by simp [hx])]

theorem numbered_element (e : EncElement) : Numbered (elementFields e) :=
  (Numbered.bytes (by norm_num) (by norm_num) _).append (.bytes (by norm_num) (by norm_num) _)

theorem numbered_set (es : List EncElement) : Numbered (setFields es) :=
  .repMsg (by norm_num) (by norm_num) _

theorem numbered_setField {n : Nat} (h1 : 1 ≤ n) (h2 : n < 2 ^ 29) (es : List EncElement) :
    Numbered (setField n es) := by
  unfold setField
  split
  · exact .nil
  · exact .msg h1 h2 _

theorem elementOf_fields (e : EncElement) : elementOf (elementFields e) = e := by
  cases e with
  | mk a b =>
    simp only [elementOf, elementFields, getBytes, List.filterMap_append,
      filterMap_bytes_bytesField]
    by_cases ha : a = [] <;> by_cases hb : b = [] <;> simp [ha, hb]

theorem setOf_fields {es : List EncElement} (h : (enc (setFields es)).length < 2 ^ 31 - 16) :
    setOf (setFields es) = some es := by
  unfold setOf
  have h1 : getRep 1 (setFields es) = (es.map elementFields).map enc := by
    rw [setFields, getRep_repMsg, if_pos rfl]
  rw [h1, parseEach_enc]
  · simp [Function.comp_def, elementOf_fields]
  · intro m hm
    obtain ⟨e, he, rfl⟩ := List.mem_map.1 hm
    refine parse_short (numbered_element e) (lt_trans ?_ h)
    refine length_le_enc (n := 1) ?_
    simp only [setFields, repMsg, List.mem_map]
    exact ⟨_, ⟨e, he, rfl⟩, rfl⟩

theorem setIn_eq {fs : List Field} {n : Nat} {es : List EncElement}
    (h : getRep n fs = if es = [] then [] else [enc (setFields es)])
    (hl : es ≠ [] → (enc (setFields es)).length < 2 ^ 31 - 16) : setIn n fs = some es := by
  unfold setIn subMsg
  rw [h]
  by_cases he : es = []
  · simp [he, parseEach, setOf]
  · rw [if_neg he]
    have hp := parse_short (numbered_set es) (hl he)
    simp [parseEach, hp, setOf_fields (hl he)]

theorem setField_length {n : Nat} {es : List EncElement} (he : es ≠ []) :
    (enc (setFields es)).length < (enc (setField n es)).length := by
  refine length_le_enc (n := n) ?_
  simp [setField, he, msgField]

theorem clientRoundOneOf_fields {m : ClientRoundOne}
    (h : (enc (clientRoundOneFields m)).length < 2 ^ 31 - 16) :
    clientRoundOneOf (clientRoundOneFields m) = some m := by
  cases m with
  | mk pk es rs =>
    simp only [clientRoundOneFields, enc_append, List.length_append] at h
    have h2 : setIn 2 (clientRoundOneFields ⟨pk, es, rs⟩) = some es := by
      apply setIn_eq
      · simp only [clientRoundOneFields, getRep_append, getRep_bytesField, getRep_setField]
        by_cases h1 : pk = [] <;> by_cases h2 : es = [] <;> by_cases h3 : rs = [] <;> simp [h1, h2, h3]
      · intro he
        have := setField_length (n := 2) he
        omega
    have h3 : setIn 3 (clientRoundOneFields ⟨pk, es, rs⟩) = some rs := by
      apply setIn_eq
      · simp only [clientRoundOneFields, getRep_append, getRep_bytesField, getRep_setField]
        by_cases h1 : pk = [] <;> by_cases h2 : es = [] <;> by_cases h3 : rs = [] <;> simp [h1, h2, h3]
      · intro he
        have := setField_length (n := 3) he
        omega
    have h1 : getBytes 1 (clientRoundOneFields ⟨pk, es, rs⟩) = pk := by
      have : getRep 1 (clientRoundOneFields ⟨pk, es, rs⟩) = if pk = [] then [] else [pk] := by
        simp only [clientRoundOneFields, getRep_append, getRep_bytesField, getRep_setField]
        by_cases h1 : pk = [] <;> by_cases h2 : es = [] <;> by_cases h3 : rs = [] <;> simp [h1, h2, h3]
      unfold getRep at this
      rw [getBytes, this]
      by_cases h1 : pk = [] <;> simp [h1]
    simp [clientRoundOneOf, h1, h2, h3]

theorem msgField_length (n : Nat) (fs : List Field) :
    (enc fs).length < (enc (msgField n fs)).length :=
  length_le_enc (n := n) (by simp [msgField])

theorem subMsg_msgField {fs : List Field} (n : Nat) (h : Numbered fs)
    (hl : (enc fs).length < 2 ^ 31 - 16) : subMsg n (msgField n fs) = some fs := by
  simp [subMsg, getRep_msgField, parseEach, parse_short h hl]

theorem decodeClient_encode {m : ClientMsg} (h : (encodeClient m).length < 2 ^ 31 - 16) :
    decodeClient (encodeClient m) = some m := by
  have hp : parse (encodeClient m) = some (clientFields m) := by
    refine parse_short ?_ h
    cases m with
    | other => exact .nil
    | empty => exact .msg (by norm_num) (by norm_num) _
    | start => exact .msg (by norm_num) (by norm_num) _
    | roundOne m => exact .msg (by norm_num) (by norm_num) _
  unfold decodeClient
  rw [hp]
  simp only []
  unfold encodeClient at h
  cases m with
  | other => rfl
  | empty => decide
  | start => decide
  | roundOne m =>
    simp only [clientFields] at h
    rw [if_neg (by simp [getRep, msgField, clientFields, Field.bytes?])]
    simp only [clientFields]
    have h1 := msgField_length 1 (msgField 2 (clientRoundOneFields m))
    have h2 := msgField_length 2 (clientRoundOneFields m)
    have hn : Numbered (clientRoundOneFields m) :=
      ((Numbered.bytes (by norm_num) (by norm_num) _).append
        (numbered_setField (by norm_num) (by norm_num) _)).append
        (numbered_setField (by norm_num) (by norm_num) _)
    rw [subMsg_msgField 1 (.msg (by norm_num) (by norm_num) _) (by omega)]
    simp only [msgField, OneOf.addAll, OneOf.add, parse_short hn (by omega),
      clientRoundOneOf_fields (m := m) (by omega), Option.isSome_some, if_true, Option.map_some]

theorem getInt64_field {v : Int} (h1 : -2 ^ 63 ≤ v) (h2 : v < 2 ^ 63) (b : Bytes) :
    getInt64 1 (int64Field 1 v ++ bytesField 2 b) = v := by
  simp only [getInt64, List.filterMap_append, filterMap_int_int64Field, filterMap_int_bytesField,
    List.append_nil, if_true]
  by_cases hv : v = 0
  · simp [hv]
  · simp only [hv, if_false, List.getLast?_singleton, Option.getD_some]
    split <;> omega

theorem decodeServer_encode {m : ServerMsg} (h : (encodeServer m).length < 2 ^ 31 - 16)
    (hs : ∀ r, m = .roundTwo r → -2 ^ 63 ≤ r.size ∧ r.size < 2 ^ 63) :
    decodeServer (encodeServer m) = some m := by
  have hp : parse (encodeServer m) = some (serverFields m) := by
    refine parse_short ?_ h
    cases m with
    | other => exact .nil
    | empty => exact .msg (by norm_num) (by norm_num) _
    | roundOne m => exact .msg (by norm_num) (by norm_num) _
    | roundTwo m => exact .msg (by norm_num) (by norm_num) _
  unfold decodeServer
  rw [hp]
  simp only []
  unfold encodeServer at h
  cases m with
  | other => rfl
  | empty => decide
  | roundOne es =>
    simp only [serverFields] at h
    rw [if_neg (by simp [getRep, msgField, serverFields, Field.bytes?])]
    simp only [serverFields]
    have h1 := msgField_length 1 (msgField 1 (setField 1 es))
    have h2 := msgField_length 1 (setField 1 es)
    rw [subMsg_msgField 1 (.msg (by norm_num) (by norm_num) _) (by omega)]
    have hset : setIn 1 (setField 1 es) = some es := by
      apply setIn_eq
      · rw [getRep_setField]
        simp
      · intro he
        have := setField_length (n := 1) he
        omega
    simp only [msgField, OneOf.addAll, OneOf.add, parse_short (fs := setField 1 es)
      (numbered_setField (by norm_num) (by norm_num) es) (by omega), hset,
      Option.isSome_some, if_true, Option.map_some]
  | roundTwo r =>
    simp only [serverFields] at h
    rw [if_neg (by simp [getRep, msgField, serverFields, Field.bytes?])]
    simp only [serverFields]
    have h1 := msgField_length 1 (msgField 2 (serverRoundTwoFields r))
    have h2 := msgField_length 2 (serverRoundTwoFields r)
    have hn : Numbered (serverRoundTwoFields r) :=
      (Numbered.int64 (by norm_num) (by norm_num) _).append (.bytes (by norm_num) (by norm_num) _)
    rw [subMsg_msgField 1 (.msg (by norm_num) (by norm_num) _) (by omega)]
    simp only [msgField, OneOf.addAll, OneOf.add, parse_short hn (by omega), if_true]
    obtain ⟨hs1, hs2⟩ := hs r rfl
    have e1 : getInt64 1 (serverRoundTwoFields r) = r.size := getInt64_field hs1 hs2 _
    have e2 : getBytes 2 (serverRoundTwoFields r) = r.encryptedSum := by
      simp only [serverRoundTwoFields, getBytes, List.filterMap_append, filterMap_bytes_int64Field,
        filterMap_bytes_bytesField, List.nil_append, if_true]
      by_cases hb : r.encryptedSum = [] <;> simp [hb]
    rw [serverRoundTwoOf, e1, e2]

end PJC.Protocol
