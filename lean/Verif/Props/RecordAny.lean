import Verif.Props.RecordIO
/-
C108: what a record reader makes of an arbitrary file.

Specification: `Parse content records status` says, by rules and without reference to the reader,
which records a file consists of and how reading it ends.  A length is written as up to four bytes
with the high bit set and a final byte without it; its value is the number with these bytes, less
the high bits, as digits in base 128 (least significant first), modulo 2^32.
-/
namespace PJC.Rec

/-! ### Specification -/

/-- The number with the given digits in base 128, high bits ignored. -/
def digits : Bytes → Nat
  | [] => 0
  | b :: bs => b.val % 128 + 128 * digits bs

/-- How a file is divided into records. -/
inductive Parse : Bytes → List Bytes → Res Unit → Prop
  /-- The end of the data. -/
  | done : Parse [] [] (.ok ())
  /-- A complete record, and what follows it. -/
  | record {pre : Bytes} {last : Byte} {r rest : Bytes} {rs : List Bytes} {st : Res Unit} :
      pre.length ≤ 4 → (∀ b ∈ pre, 128 ≤ b.val) → last.val < 128 →
      r.length = digits (pre ++ [last]) % 2 ^ 32 → Parse rest rs st →
      Parse (pre ++ last :: (r ++ rest)) (r :: rs) st
  /-- Fewer bytes are left than the length says. -/
  | short {pre : Bytes} {last : Byte} {r : Bytes} :
      pre.length ≤ 4 → (∀ b ∈ pre, 128 ≤ b.val) → last.val < 128 →
      r.length < digits (pre ++ [last]) % 2 ^ 32 → Parse (pre ++ last :: r) [] (.err .internal)
  /-- The file ends inside a length. -/
  | cut {pre : Bytes} : pre ≠ [] → pre.length ≤ 4 → (∀ b ∈ pre, 128 ≤ b.val) →
      Parse pre [] (.err .internal)
  /-- Five bytes with the high bit set where a length should be. -/
  | tooLong {pre rest : Bytes} : pre.length = 5 → (∀ b ∈ pre, 128 ≤ b.val) →
      Parse (pre ++ rest) [] (.err .invalidArgument)

/-! ### The reader follows the rules -/

theorem digits_eq : ∀ bs, digits bs = groupValue bs
  | [] => rfl
  | b :: bs => by rw [digits, digits_eq bs]; rfl

theorem extractLoop_tooLong (junk : Nat) : ∀ (left : Nat) (acc v tail : Bytes),
    (∀ b ∈ v, 128 ≤ b.val) → v.length = left + 1 →
    extractLoop junk (left + 1) acc true ⟨v ++ tail, false⟩ =
      (.err .invalidArgument, ⟨tail, false⟩)
  | left, acc, [], tail, _, hl => by simp at hl
  | left, acc, b :: v, tail, hv, hl => by
    have hr : Stream.read 1 ⟨b :: v ++ tail, false⟩ = (.ok [b], ⟨v ++ tail, false⟩) := by
      simp [Stream.read]
    have hb : ¬ b.val < 128 := by have := hv b (by simp); omega
    rw [extractLoop]
    simp only [Bool.not_true, Bool.false_eq_true, if_false, hr, hb]
    match left with
    | 0 =>
      have : v = [] := List.length_eq_zero_iff.1 (by simpa using hl)
      simp [this]
    | left + 1 =>
      have hv' : v.length = left + 1 := by simpa using hl
      have hmore : Stream.hasMore ⟨v ++ tail, false⟩ = (true, ⟨v ++ tail, false⟩) :=
        Stream.hasMore_ne (by
          intro h
          have := congrArg List.length h
          simp [hv'] at this)
      simp only [Nat.succ_ne_zero, if_false, hmore]
      exact extractLoop_tooLong junk left _ v tail (fun c hc => hv c (by simp [hc])) hv'

theorem extract_front (junk : Nat) {pre : Bytes} {last : Byte} (tail : Bytes)
    (h1 : pre.length ≤ 4) (h2 : ∀ b ∈ pre, 128 ≤ b.val) (h3 : last.val < 128) :
    extractVarint32 junk ⟨pre ++ last :: tail, false⟩ =
      (.ok (digits (pre ++ [last]) % 2 ^ 32), ⟨tail, false⟩) := by
  have hv : IsVarint (pre ++ [last]) := ⟨pre, last, rfl, h2, h3⟩
  have e : pre ++ last :: tail = (pre ++ [last]) ++ tail := by simp
  rw [extractVarint32, e, Stream.hasMore_ne (by simp)]
  dsimp only
  rw [extractLoop_complete junk 5 [] _ tail hv (by simp; omega), List.nil_append,
    readVarint32_complete junk hv, digits_eq]

theorem readAll_of_parse (junk : Nat) (hj : 0 < junk) {content : Bytes} {rs : List Bytes}
    {st : Res Unit} (h : Parse content rs st) :
    ∀ fuel, content.length < fuel → readAll junk fuel ⟨content, false⟩ = (rs, st) := by
  induction h with
  | done =>
    intro fuel hf
    obtain ⟨f, rfl⟩ := Nat.exists_eq_add_of_lt hf
    rw [readAll, Stream.hasMore_nil]
    rfl
  | @record pre last r rest rs st h1 h2 h3 h4 h5 ih =>
    intro fuel hf
    obtain ⟨f, rfl⟩ := Nat.exists_eq_add_of_lt (Nat.zero_lt_of_lt hf)
    rw [zero_add] at hf ⊢
    have hread : readRecord junk ⟨pre ++ last :: (r ++ rest), false⟩ = (.ok r, ⟨rest, false⟩) := by
      rw [readRecord, extract_front junk _ h1 h2 h3]
      dsimp only
      rw [Stream.read, ← h4]
      simp
    rw [readAll, Stream.hasMore_ne (by simp)]
    dsimp only
    rw [hread]
    simp only [Bool.not_true, Bool.false_eq_true, if_false]
    rw [ih f (by simp at hf; omega)]
  | @short pre last r h1 h2 h3 h4 =>
    intro fuel hf
    obtain ⟨f, rfl⟩ := Nat.exists_eq_add_of_lt (Nat.zero_lt_of_lt hf)
    rw [zero_add] at hf ⊢
    have hread : readRecord junk ⟨pre ++ last :: r, false⟩ = (.err .internal, ⟨[], true⟩) := by
      rw [readRecord, extract_front junk _ h1 h2 h3]
      dsimp only
      rw [Stream.read, if_neg (by dsimp only; omega)]
    rw [readAll, Stream.hasMore_ne (by simp)]
    dsimp only
    rw [hread]
    rfl
  | @cut pre h1 h2 h3 =>
    intro fuel hf
    obtain ⟨f, rfl⟩ := Nat.exists_eq_add_of_lt (Nat.zero_lt_of_lt hf)
    rw [zero_add] at hf ⊢
    have hread : readRecord junk ⟨pre, false⟩ = (.err .internal, ⟨[], true⟩) := by
      rw [readRecord, extractVarint32, Stream.hasMore_ne h1]
      dsimp only
      rw [extractLoop_cut junk 5 [] pre (by simp) h3 h1 (by omega)]
      dsimp only
      rw [Stream.read, if_neg (by simp; omega)]
    rw [readAll, Stream.hasMore_ne h1]
    dsimp only
    rw [hread]
    rfl
  | @tooLong pre rest h1 h2 =>
    intro fuel hf
    obtain ⟨f, rfl⟩ := Nat.exists_eq_add_of_lt (Nat.zero_lt_of_lt hf)
    rw [zero_add] at hf ⊢
    have hne : pre ++ rest ≠ [] := by
      intro h
      have := congrArg List.length h
      simp [h1] at this
    have hread : readRecord junk ⟨pre ++ rest, false⟩ =
        (.err .invalidArgument, ⟨rest, false⟩) := by
      rw [readRecord, extractVarint32, Stream.hasMore_ne hne]
      dsimp only
      rw [extractLoop_tooLong junk 4 [] pre rest h2 h1]
    rw [readAll, Stream.hasMore_ne hne]
    dsimp only
    rw [hread]
    rfl

/-- Every file is divided by the rules. -/
theorem exists_parse : ∀ (n : Nat) (content : Bytes), content.length < n →
    ∃ rs st, Parse content rs st
  | 0, _, h => by omega
  | n + 1, content, h => by
    by_cases hnil : content = []
    · subst hnil; exact ⟨_, _, .done⟩
    -- the bytes with the high bit set at the front
    have hsplit : ∀ (k : Nat) (c : Bytes), (∃ pre rest, c = pre ++ rest ∧ pre.length = k ∧
        ∀ b ∈ pre, 128 ≤ b.val) ∨ (∃ pre last rest, c = pre ++ last :: rest ∧ pre.length < k ∧
        (∀ b ∈ pre, 128 ≤ b.val) ∧ last.val < 128) ∨ (c.length < k ∧ ∀ b ∈ c, 128 ≤ b.val) := by
      intro k
      induction k with
      | zero => intro c; exact .inl ⟨[], c, rfl, rfl, by simp⟩
      | succ k ih =>
        intro c
        match c with
        | [] => exact .inr (.inr ⟨by simp, by simp⟩)
        | b :: c =>
          by_cases hb : b.val < 128
          · exact .inr (.inl ⟨[], b, c, rfl, by simp, by simp, hb⟩)
          have hb' : 128 ≤ b.val := by omega
          rcases ih c with ⟨pre, rest, rfl, h1, h2⟩ | ⟨pre, last, rest, rfl, h1, h2, h3⟩ | ⟨h1, h2⟩
          · exact .inl ⟨b :: pre, rest, rfl, by simp [h1], by
              intro x hx; rcases List.mem_cons.1 hx with rfl | hx
              · exact hb'
              · exact h2 x hx⟩
          · exact .inr (.inl ⟨b :: pre, last, rest, rfl, by simpa using h1, by
              intro x hx; rcases List.mem_cons.1 hx with rfl | hx
              · exact hb'
              · exact h2 x hx, h3⟩)
          · exact .inr (.inr ⟨by simpa using h1, by
              intro x hx; rcases List.mem_cons.1 hx with rfl | hx
              · exact hb'
              · exact h2 x hx⟩)
    rcases hsplit 5 content with ⟨pre, rest, rfl, h1, h2⟩ | ⟨pre, last, rest, rfl, h1, h2, h3⟩ |
      ⟨h1, h2⟩
    · exact ⟨_, _, .tooLong h1 h2⟩
    · by_cases hlen : rest.length < digits (pre ++ [last]) % 2 ^ 32
      · exact ⟨_, _, .short (by omega) h2 h3 hlen⟩
      · obtain ⟨rs, st, hp⟩ := exists_parse n (rest.drop (digits (pre ++ [last]) % 2 ^ 32)) (by
          simp at h ⊢; omega)
        have := Parse.record (r := rest.take (digits (pre ++ [last]) % 2 ^ 32)) (by omega) h2 h3
          (by rw [List.length_take]; omega) hp
        rw [List.take_append_drop] at this
        exact ⟨_, _, this⟩
    · exact ⟨_, _, .cut hnil (by omega) h2⟩

/-- **C108**.  For every file, whatever wrote it, the reader returns the records and ends with the
status that the rules give (and the rules give exactly one answer).  (`junk` is the value protobuf
leaves behind for an incomplete varint; it is not 0.) -/
theorem C108_any_file (junk : Nat) (hj : 0 < junk) (content : Bytes) (rs : List Bytes)
    (st : Res Unit) : readRecords junk content = (rs, st) ↔ Parse content rs st := by
  have h1 : ∀ {rs st}, Parse content rs st → readRecords junk content = (rs, st) := fun h =>
    readAll_of_parse junk hj h _ (Nat.lt_succ_self _)
  refine ⟨fun h => ?_, h1⟩
  obtain ⟨rs', st', hp⟩ := exists_parse _ content (Nat.lt_succ_self _)
  have := h1 hp
  rw [h] at this
  obtain ⟨rfl, rfl⟩ : rs = rs' ∧ st = st' := by simpa using this
  exact hp

/-- **C108**, in short: reading any file ends with OK, INTERNAL or INVALID_ARGUMENT, and the records
returned are together no longer than the file. -/
theorem C108_ends (junk : Nat) (hj : 0 < junk) (content : Bytes) :
    ((readRecords junk content).2 = .ok () ∨ (readRecords junk content).2 = .err .internal ∨
      (readRecords junk content).2 = .err .invalidArgument) ∧
    ((readRecords junk content).1.map fun r => 1 + r.length).sum ≤ content.length := by
  obtain ⟨rs, st, h⟩ := exists_parse _ content (Nat.lt_succ_self _)
  rw [(C108_any_file junk hj content rs st).2 h]
  induction h with
  | done => simp
  | record h1 h2 h3 h4 h5 ih => exact ⟨ih.1, by have := ih.2; simp at this ⊢; omega⟩
  | short => simp
  | cut => simp
  | tooLong => simp

/-- The length 2 written in a roundabout way is accepted; five continuation bytes are not; the
length 2^32 + 1 is taken for 1. -/
example : readRecords 1 [130, 0, 7, 8] = ([[7, 8]], .ok ()) ∧
    readRecords 1 [1, 9, 128, 128, 128, 128, 128, 0] = ([[9]], .err .invalidArgument) ∧
    readRecords 1 [129, 128, 128, 128, 16, 9] = ([[9]], .ok ()) := by
  refine ⟨?_, ?_, ?_⟩ <;> decide +kernel

example : Parse [1, 9, 128, 128, 128, 128, 128, 0] [[9]] (.err .invalidArgument) :=
  .record (pre := []) (last := 1) (r := [9]) (by simp) (by simp) (by decide)
    (by norm_num [digits])
    (.tooLong (pre := [128, 128, 128, 128, 128]) (rest := [0]) rfl (by decide +kernel))

end PJC.Rec
