import Verif.Model.WireParse
import Verif.Lemmas.Wire
/-
Parsing inverts serializing.
-/
namespace PJC.Wire

theorem readVarint_varintBytes : ∀ (f n g : Nat) (tail : Bytes), n < 128 ^ f → 0 < f →
    (Rec.varintBytes f n).length ≤ g →
    readVarint g (Rec.varintBytes f n ++ tail) = some (n, tail)
  | 0, _, _, _, _, h, _ => by omega
  | f + 1, n, g, tail, hn, _, hg => by
    rw [Rec.varintBytes] at hg ⊢
    by_cases h : n < 128
    · rw [if_pos h] at hg ⊢
      cases g with
      | zero => simp at hg
      | succ g =>
        rw [List.singleton_append, readVarint, Rec.byte_val (by omega), if_pos h]
    · rw [if_neg h] at hg ⊢
      have h1 : n / 128 < 128 ^ f := by
        rw [Nat.div_lt_iff_lt_mul (by norm_num)]
        rwa [pow_succ] at hn
      have hf : 0 < f := by
        rcases Nat.eq_zero_or_pos f with rfl | hf
        · simp at hn; omega
        · exact hf
      cases g with
      | zero => simp at hg
      | succ g =>
        rw [List.cons_append, readVarint, Rec.byte_val (by omega), if_neg (by omega),
          readVarint_varintBytes f (n / 128) g tail h1 hf (by simpa using hg)]
        simp only [Option.some.injEq, Prod.mk.injEq, and_true]
        omega

theorem varintBytes_length_le : ∀ (f n k : Nat), n < 128 ^ k → 0 < k →
    (Rec.varintBytes f n).length ≤ k
  | 0, _, _, _, _ => by simp [Rec.varintBytes]
  | f + 1, n, k, hn, hk => by
    rw [Rec.varintBytes]
    split
    · simp; omega
    · rename_i h
      cases k with
      | zero => omega
      | succ k =>
        have h1 : n / 128 < 128 ^ k := by
          rw [Nat.div_lt_iff_lt_mul (by norm_num)]
          rwa [pow_succ] at hn
        have hk : 0 < k := by
          rcases Nat.eq_zero_or_pos k with rfl | hk
          · simp at hn; omega
          · exact hk
        have := varintBytes_length_le f (n / 128) k h1 hk
        simp; omega

theorem readVarint_varint {n k : Nat} (hn : n < 2 ^ 64) (hk : n < 128 ^ k) (h0 : 0 < k)
    (tail : Bytes) : readVarint k (varint n ++ tail) = some (n, tail) :=
  readVarint_varintBytes 10 n k tail (lt_of_lt_of_le hn (by norm_num)) (by norm_num)
    (varintBytes_length_le 10 n k hk h0)

/-- Fields protobuf can parse: numbers from 1 below 2^29, values below 2^64, sizes below the
limit of 2^31 - 16 bytes. -/
def Field.Parsable : Field → Prop
  | .varint num v => 1 ≤ num ∧ num < 2 ^ 29 ∧ v < 2 ^ 64
  | .len num b => 1 ≤ num ∧ num < 2 ^ 29 ∧ b.length < 2 ^ 31 - 16

theorem readField_enc {f : Field} (h : f.Parsable) (tail : Bytes) :
    readField (f.enc ++ tail) = some (some f, tail) := by
  cases f with
  | varint num v =>
    obtain ⟨h1, h2, h3⟩ := h
    rw [readField, Field.enc, List.append_assoc,
      readVarint_varint (by omega) (by norm_num; omega) (by norm_num)]
    simp only []
    rw [if_neg (by omega), if_pos (by omega),
      readVarint_varint h3 (lt_of_lt_of_le h3 (by norm_num)) (by norm_num)]
    simp only [Nat.mod_eq_of_lt h3]
    rw [show num * 8 / 8 = num by omega]
  | len num b =>
    obtain ⟨h1, h2, h3⟩ := h
    rw [readField, Field.enc, List.append_assoc, List.append_assoc,
      readVarint_varint (by omega) (by norm_num; omega) (by norm_num)]
    simp only []
    rw [if_neg (by omega), if_neg (by omega), if_pos (by omega),
      readVarint_varint (by omega) (by norm_num; omega) (by norm_num)]
    simp only []
    rw [if_pos ⟨by simp, h3⟩, show (num * 8 + 2) / 8 = num by omega]
    simp

theorem readFields_enc : ∀ (fs : List Field) (fuel : Nat), (∀ f ∈ fs, f.Parsable) →
    (enc fs).length ≤ fuel → readFields fuel (enc fs) = some fs
  | [], fuel, _, _ => by cases fuel <;> rfl
  | f :: fs, fuel, h, hl => by
    rw [enc_cons] at hl ⊢
    obtain ⟨b, r, hbr⟩ : ∃ b r, f.enc = b :: r := by
      cases hf : f.enc with
      | nil => exact absurd hf f.enc_ne_nil
      | cons b r => exact ⟨b, r, rfl⟩
    cases fuel with
    | zero => rw [hbr] at hl; simp at hl
    | succ fuel =>
      have hr := readField_enc (h f (by simp)) (enc fs)
      rw [hbr, List.cons_append] at hr ⊢
      rw [readFields, hr]
      simp only []
      rw [readFields_enc fs fuel (fun x hx => h x (by simp [hx]))
        (by rw [hbr] at hl; simp at hl; omega)]
      simp

theorem parse_enc {fs : List Field} (h : ∀ f ∈ fs, f.Parsable) : parse (enc fs) = some fs :=
  readFields_enc fs _ h le_rfl

theorem fromString_enc (junk : Bytes → List Field) {fs : List Field} (h : ∀ f ∈ fs, f.Parsable) :
    fromString junk (enc fs) = fs := by
  rw [fromString, parse_enc h]

theorem parsable_bytesField {n : Nat} {b : Bytes} (h1 : 1 ≤ n) (h2 : n < 2 ^ 29)
    (hb : b.length < 2 ^ 31 - 16) : ∀ f ∈ bytesField n b, f.Parsable := by
  intro f hf
  unfold bytesField at hf
  split at hf
  · simp at hf
  · simp only [List.mem_singleton] at hf
    subst hf
    exact ⟨h1, h2, hb⟩

theorem parsable_int64Field {n : Nat} {v : Int} (h1 : 1 ≤ n) (h2 : n < 2 ^ 29) :
    ∀ f ∈ int64Field n v, f.Parsable := by
  intro f hf
  unfold int64Field at hf
  split at hf
  · simp at hf
  · simp only [List.mem_singleton] at hf
    subst hf
    exact ⟨h1, h2, by omega⟩

@[simp] theorem filterMap_bytes_bytesField (k n : Nat) (b : Bytes) :
    (bytesField n b).filterMap (Field.bytes? k) = if b = [] then [] else if n = k then [b] else [] := by
  unfold bytesField
  by_cases hb : b = [] <;> by_cases hn : n = k <;> simp [hb, hn, Field.bytes?]

@[simp] theorem filterMap_bytes_int64Field (k n : Nat) (v : Int) :
    (int64Field n v).filterMap (Field.bytes? k) = [] := by
  unfold int64Field
  by_cases hb : v = 0 <;> simp [hb, Field.bytes?]

@[simp] theorem filterMap_int_bytesField (k n : Nat) (b : Bytes) :
    (bytesField n b).filterMap (Field.int? k) = [] := by
  unfold bytesField
  by_cases hb : b = [] <;> simp [hb, Field.int?]

@[simp] theorem filterMap_int_int64Field (k n : Nat) (v : Int) :
    (int64Field n v).filterMap (Field.int? k) =
      if v = 0 then [] else if n = k then [(v % 2 ^ 64).toNat] else [] := by
  unfold int64Field
  by_cases hb : v = 0 <;> by_cases hn : n = k <;> simp [hb, hn, Field.int?]

theorem toInt32_mod {v : Int} (h1 : -2 ^ 31 ≤ v) (h2 : v < 2 ^ 31) : toInt32 (v % 2 ^ 64).toNat = v := by
  unfold toInt32
  split <;> omega

end PJC.Wire
