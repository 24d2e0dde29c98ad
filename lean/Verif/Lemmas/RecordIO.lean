import Verif.Model.RecordIO
import Mathlib.Tactic.Ring
import Mathlib.Tactic.Linarith
/-
The record format: encoding, decoding, truncation.
-/
namespace PJC.Rec

theorem byte_val {n : Nat} (h : n < 256) : (Fin.ofNat 256 n : Byte).val = n := by
  simp [Fin.ofNat, Nat.mod_eq_of_lt h]

/-- The value of the seven-bit groups. -/
def groupValue (bs : Bytes) : Nat := bs.foldr (fun (b : Byte) acc => b.val % 128 + 128 * acc) 0

theorem varint_value : ∀ (fuel n : Nat), n < 128 ^ fuel → groupValue (varintBytes fuel n) = n := by
  intro fuel
  induction fuel with
  | zero => intro n h; simp at h; simp [varintBytes, groupValue, h]
  | succ f ih =>
    intro n h
    rw [varintBytes]
    by_cases hn : n < 128
    · rw [if_pos hn]
      simp only [groupValue, List.foldr_cons, List.foldr_nil]
      rw [byte_val (by omega)]
      omega
    · rw [if_neg hn]
      have h1 : n / 128 < 128 ^ f := by
        rw [Nat.div_lt_iff_lt_mul (by norm_num)]
        rw [pow_succ] at h
        exact h
      have := ih (n / 128) h1
      rw [groupValue] at this
      simp only [groupValue, List.foldr_cons, this]
      rw [byte_val (by omega)]
      omega

/-- A varint: continuation bytes and a final byte. -/
def IsVarint (bs : Bytes) : Prop :=
  ∃ init last, bs = init ++ [last] ∧ (∀ b ∈ init, 128 ≤ b.val) ∧ last.val < 128

theorem varint_isVarint : ∀ (fuel n : Nat), n < 128 ^ fuel → 0 < fuel →
    IsVarint (varintBytes fuel n) ∧ (varintBytes fuel n).length ≤ fuel := by
  intro fuel
  induction fuel with
  | zero => intro n _ h; omega
  | succ f ih =>
    intro n h _
    rw [varintBytes]
    by_cases hn : n < 128
    · rw [if_pos hn]
      refine ⟨⟨[], _, rfl, by simp, ?_⟩, by simp⟩
      rw [byte_val (by omega)]; exact hn
    · rw [if_neg hn]
      have h1 : n / 128 < 128 ^ f := by
        rw [Nat.div_lt_iff_lt_mul (by norm_num)]
        rw [pow_succ] at h
        exact h
      have hf : 0 < f := by
        rcases Nat.eq_zero_or_pos f with rfl | hf
        · simp at h; omega
        · exact hf
      obtain ⟨⟨init, last, e, h2, h3⟩, h4⟩ := ih _ h1 hf
      refine ⟨⟨Fin.ofNat 256 (n % 128 + 128) :: init, last, by rw [e]; rfl, ?_, h3⟩, by simp; omega⟩
      intro b hb
      rcases List.mem_cons.1 hb with rfl | hb
      · rw [byte_val (by omega)]; omega
      · exact h2 b hb

theorem IsVarint.cons {b : Byte} {bs : Bytes} (h : IsVarint (b :: bs)) (hb : 128 ≤ b.val) :
    IsVarint bs := by
  obtain ⟨init, last, e, h2, h3⟩ := h
  cases init with
  | nil => simp at e; rw [e.1] at hb; omega
  | cons c init =>
    simp at e
    exact ⟨init, last, e.2, fun b hb => h2 b (List.mem_cons_of_mem _ hb), h3⟩

theorem IsVarint.single {b : Byte} {bs : Bytes} (h : IsVarint (b :: bs)) (hb : b.val < 128) :
    bs = [] := by
  obtain ⟨init, last, e, h2, h3⟩ := h
  cases init with
  | nil => simp at e; exact e.2
  | cons c init =>
    simp at e
    have := h2 c (by simp)
    rw [← e.1] at this; omega

theorem IsVarint.ne_nil {bs : Bytes} (h : IsVarint bs) : bs ≠ [] := by
  obtain ⟨init, last, rfl, -⟩ := h
  simp

theorem readVarint32_complete (junk : Nat) {bs : Bytes} (h : IsVarint bs) :
    readVarint32 junk bs = groupValue bs % 2 ^ 32 := by
  obtain ⟨init, last, rfl, h2, h3⟩ := h
  simp [readVarint32, h3, groupValue]

theorem readVarint32_incomplete (junk : Nat) {bs : Bytes} (h : ∀ b ∈ bs, 128 ≤ b.val) :
    readVarint32 junk bs = junk := by
  unfold readVarint32
  cases hb : bs.getLast? with
  | none => rfl
  | some b =>
    have := h b (List.mem_of_getLast? hb)
    simp only []
    rw [if_neg (by omega)]

theorem Stream.hasMore_cons {b : Byte} {r : Bytes} :
    Stream.hasMore ⟨b :: r, false⟩ = (true, ⟨b :: r, false⟩) := rfl

theorem Stream.hasMore_ne {r : Bytes} (h : r ≠ []) :
    Stream.hasMore ⟨r, false⟩ = (true, ⟨r, false⟩) := by
  cases r with
  | nil => simp at h
  | cons b r => rfl

theorem Stream.hasMore_nil (e : Bool) : Stream.hasMore ⟨[], e⟩ = (false, ⟨[], true⟩) := by
  cases e <;> rfl

/-- A complete varint at the front is read. -/
theorem extractLoop_complete (junk : Nat) : ∀ (left : Nat) (acc v tail : Bytes),
    IsVarint v → v.length ≤ left →
    extractLoop junk left acc true ⟨v ++ tail, false⟩ =
      (.ok (readVarint32 junk (acc ++ v)), ⟨tail, false⟩) := by
  intro left
  induction left with
  | zero =>
    intro acc v tail h hl
    exact absurd (List.length_eq_zero_iff.1 (by omega)) h.ne_nil
  | succ n ih =>
    intro acc v tail h hl
    cases v with
    | nil => exact absurd rfl h.ne_nil
    | cons b v =>
      have hr : Stream.read 1 ⟨b :: v ++ tail, false⟩ = (.ok [b], ⟨v ++ tail, false⟩) := by
        simp [Stream.read]
      rw [extractLoop]
      simp only [Bool.not_true, Bool.false_eq_true, if_false, hr]
      by_cases hb : b.val < 128
      · have := h.single hb
        subst this
        simp [hb]
      · have hv := h.cons (by omega)
        have hn : n ≠ 0 := by
          rintro rfl
          simp at hl
          exact hv.ne_nil hl
        have hmore : Stream.hasMore ⟨v ++ tail, false⟩ = (true, ⟨v ++ tail, false⟩) :=
          Stream.hasMore_ne (by simp [hv.ne_nil])
        simp only [hb, hn, if_false, hmore]
        rw [ih _ v tail hv (by simpa using hl)]
        simp

/-- A varint cut off by the end of the file leaves the junk value. -/
theorem extractLoop_cut (junk : Nat) : ∀ (left : Nat) (acc v : Bytes),
    (∀ b ∈ acc, 128 ≤ b.val) → (∀ b ∈ v, 128 ≤ b.val) → v ≠ [] → v.length < left →
    extractLoop junk left acc true ⟨v, false⟩ = (.ok junk, ⟨[], true⟩) := by
  intro left
  induction left with
  | zero => intro acc v _ _ _ h; omega
  | succ n ih =>
    intro acc v hacc hv hne hl
    cases v with
    | nil => simp at hne
    | cons b v =>
      have hr : Stream.read 1 ⟨b :: v, false⟩ = (.ok [b], ⟨v, false⟩) := by
        simp [Stream.read]
      have hb : ¬ b.val < 128 := by have := hv b (by simp); omega
      have hn : n ≠ 0 := by
        rintro rfl
        simp at hl
      have hacc' : ∀ c ∈ acc ++ [b], 128 ≤ c.val := by
        intro c hc
        rcases List.mem_append.1 hc with hc | hc
        · exact hacc c hc
        · rw [List.mem_singleton] at hc; subst hc; omega
      rw [extractLoop]
      simp only [Bool.not_true, Bool.false_eq_true, if_false, hr, hb, hn]
      cases v with
      | nil =>
        rw [Stream.hasMore_nil]
        simp only []
        cases n with
        | zero => omega
        | succ n =>
          rw [extractLoop]
          simp only [Bool.not_false, if_true]
          rw [readVarint32_incomplete junk hacc']
      | cons c v =>
        rw [Stream.hasMore_cons]
        simp only []
        exact ih _ (c :: v) hacc' (fun x hx => hv x (List.mem_cons_of_mem _ hx)) (by simp)
          (by simp at hl ⊢; omega)

/-- The bytes of a record. -/
def recBytes (r : Bytes) : Bytes := varintBytes 5 r.length ++ r

/-- The bytes of a list of records. -/
def fileBytes (rs : List Bytes) : Bytes := rs.flatMap recBytes

theorem encodeRecord_eq {r : Bytes} (h : r.length < 2 ^ 31) : encodeRecord r = .ok (recBytes r) := by
  rw [encodeRecord, if_pos h]; rfl

theorem encodeRecord_ok {r bs : Bytes} (h : encodeRecord r = .ok bs) :
    r.length < 2 ^ 31 ∧ bs = recBytes r := by
  unfold encodeRecord at h
  split at h
  · rename_i hl; cases h; exact ⟨hl, rfl⟩
  · cases h

theorem recBytes_ne_nil (r : Bytes) : recBytes r ≠ [] := by
  rw [recBytes, varintBytes]
  split <;> simp

theorem readRecord_ok (junk : Nat) {r : Bytes} (hr : r.length < 2 ^ 31) (tail : Bytes) :
    readRecord junk ⟨recBytes r ++ tail, false⟩ = (.ok r, ⟨tail, false⟩) := by
  obtain ⟨h1, h2⟩ := varint_isVarint 5 r.length (by norm_num; omega) (by norm_num)
  have hv := varint_value 5 r.length (by norm_num; omega)
  have he : extractVarint32 junk ⟨recBytes r ++ tail, false⟩ =
      (.ok r.length, ⟨r ++ tail, false⟩) := by
    rw [extractVarint32, recBytes, Stream.hasMore_ne (by simp [h1.ne_nil])]
    simp only []
    rw [List.append_assoc, extractLoop_complete junk 5 [] _ _ h1 h2, List.nil_append,
      readVarint32_complete junk h1, hv, Nat.mod_eq_of_lt (by omega)]
  rw [readRecord, he]
  simp [Stream.read]

/-- A record cut off by the end of the file is an error. -/
theorem readRecord_cut (junk : Nat) (hj : 0 < junk) {r : Bytes} (hr : r.length < 2 ^ 31)
    (p : Bytes) (hp : p <+: recBytes r) (hne : p ≠ []) (hlt : p ≠ recBytes r) :
    ∃ s, readRecord junk ⟨p, false⟩ = (.err .internal, s) := by
  obtain ⟨h1, h2⟩ := varint_isVarint 5 r.length (by norm_num; omega) (by norm_num)
  have hv := varint_value 5 r.length (by norm_num; omega)
  obtain ⟨q, hq⟩ := hp
  rw [recBytes] at hq
  rcases List.append_eq_append_iff.1 hq with ⟨a, ha, hb⟩ | ⟨a, ha, hb⟩
  · by_cases han : a = []
    · -- exactly the varint
      subst han
      rw [List.append_nil] at ha
      simp at hb
      have he : extractVarint32 junk ⟨p, false⟩ = (.ok r.length, ⟨[], false⟩) := by
        rw [extractVarint32, Stream.hasMore_ne hne]
        simp only []
        have := extractLoop_complete junk 5 [] p [] (ha ▸ h1) (ha ▸ h2)
        rw [List.append_nil] at this
        rw [this, List.nil_append, readVarint32_complete junk (ha ▸ h1), ← ha, hv,
          Nat.mod_eq_of_lt (by omega)]
      have hrl : 0 < r.length := by
        rcases Nat.eq_zero_or_pos r.length with h0 | h0
        · exfalso
          apply hlt
          rw [recBytes, ← ha, List.length_eq_zero_iff.1 h0]; simp
        · exact h0
      rw [readRecord, he]
      simp only [Stream.read, List.length_nil]
      rw [if_neg (by omega)]
      exact ⟨_, rfl⟩
    · -- inside the varint
      obtain ⟨init, last, e, hi, hl⟩ := h1
      have hpre : ∀ b ∈ p, 128 ≤ b.val := by
        intro b hb'
        apply hi
        rw [e] at ha
        have : p ++ a.dropLast = init := by
          have h3 := congrArg List.dropLast ha
          rw [List.dropLast_append_of_ne_nil han] at h3
          simpa using h3.symm
        rw [← this]
        exact List.mem_append_left _ hb'
      have hplen : p.length < 5 := by
        have h3 := congrArg List.length ha
        rw [List.length_append] at h3
        have := List.length_pos_iff.2 han
        omega
      have he : extractVarint32 junk ⟨p, false⟩ = (.ok junk, ⟨[], true⟩) := by
        rw [extractVarint32, Stream.hasMore_ne hne]
        simp only []
        exact extractLoop_cut junk 5 [] p (by simp) hpre hne hplen
      rw [readRecord, he]
      simp only [Stream.read, List.length_nil]
      rw [if_neg (by omega)]
      exact ⟨_, rfl⟩
  · -- inside the data
    have he : extractVarint32 junk ⟨p, false⟩ = (.ok r.length, ⟨a, false⟩) := by
      rw [extractVarint32, Stream.hasMore_ne hne]
      simp only []
      rw [ha, extractLoop_complete junk 5 [] _ a h1 h2, List.nil_append,
        readVarint32_complete junk h1, hv, Nat.mod_eq_of_lt (by omega)]
    have hal : a.length < r.length := by
      rw [hb, List.length_append]
      have : q ≠ [] := by
        rintro rfl
        apply hlt
        rw [recBytes, ha]
        simp at hb
        rw [hb]
      have := List.length_pos_iff.2 this
      omega
    rw [readRecord, he]
    simp only [Stream.read]
    rw [if_neg (by omega)]
    exact ⟨_, rfl⟩

theorem fileBytes_cons (r : Bytes) (rs : List Bytes) :
    fileBytes (r :: rs) = recBytes r ++ fileBytes rs := rfl

theorem readAll_ok (junk : Nat) (rs : List Bytes) (h : ∀ r ∈ rs, r.length < 2 ^ 31) :
    ∀ fuel, (fileBytes rs).length < fuel →
    readAll junk fuel ⟨fileBytes rs, false⟩ = (rs, .ok ()) := by
  induction rs with
  | nil =>
    intro fuel hf
    cases fuel with
    | zero => omega
    | succ n => rfl
  | cons r rs ih =>
    intro fuel hf
    cases fuel with
    | zero => omega
    | succ n =>
      rw [fileBytes_cons] at hf ⊢
      have hpos := List.length_pos_iff.2 (recBytes_ne_nil r)
      rw [readAll, Stream.hasMore_ne (by simp [recBytes_ne_nil])]
      simp only [Bool.not_true, Bool.false_eq_true, if_false]
      rw [readRecord_ok junk (h r (by simp))]
      simp only []
      rw [ih (fun r hr => h r (List.mem_cons_of_mem _ hr)) n (by simp at hf; omega)]

/-- Reading a file cut off at any byte. -/
theorem readAll_cut (junk : Nat) (hj : 0 < junk) (rs : List Bytes)
    (h : ∀ r ∈ rs, r.length < 2 ^ 31) : ∀ (p : Bytes) (fuel : Nat), p <+: fileBytes rs →
    p.length < fuel →
    ∃ j, j ≤ rs.length ∧ (fileBytes (rs.take j)).length ≤ p.length ∧
      (j < rs.length → p.length < (fileBytes (rs.take (j + 1))).length) ∧
      ((p = fileBytes (rs.take j) ∧ readAll junk fuel ⟨p, false⟩ = (rs.take j, .ok ())) ∨
        (p ≠ fileBytes (rs.take j) ∧ readAll junk fuel ⟨p, false⟩ = (rs.take j, .err .internal))) := by
  induction rs with
  | nil =>
    intro p fuel hp hf
    have : p = [] := by simpa [fileBytes] using hp
    subst this
    cases fuel with
    | zero => simp at hf
    | succ n => exact ⟨0, by simp, by simp [fileBytes], by simp, .inl ⟨rfl, rfl⟩⟩
  | cons r rs ih =>
    intro p fuel hp hf
    cases fuel with
    | zero => omega
    | succ n =>
      rw [fileBytes_cons] at hp
      have hpos := List.length_pos_iff.2 (recBytes_ne_nil r)
      by_cases hlen : (recBytes r).length ≤ p.length
      · obtain ⟨p', rfl⟩ : ∃ p', p = recBytes r ++ p' := by
          have := List.prefix_of_prefix_length_le (List.prefix_append (recBytes r) (fileBytes rs)) hp hlen
          obtain ⟨t, ht⟩ := this
          exact ⟨t, ht.symm⟩
        have hp' : p' <+: fileBytes rs := (List.prefix_append_right_inj _).1 hp
        obtain ⟨j, h1, h2, h3, h4⟩ := ih (fun r hr => h r (List.mem_cons_of_mem _ hr)) p' n hp'
          (by simp at hf; omega)
        refine ⟨j + 1, by simp; omega, ?_, ?_, ?_⟩
        · simp only [List.take_succ_cons, fileBytes_cons, List.length_append]; omega
        · intro hlt
          simp only [List.take_succ_cons, fileBytes_cons, List.length_append]
          have := h3 (by simpa using hlt)
          omega
        · have hread : readAll junk (n + 1) ⟨recBytes r ++ p', false⟩ =
              (r :: (readAll junk n ⟨p', false⟩).1, (readAll junk n ⟨p', false⟩).2) := by
            rw [readAll, Stream.hasMore_ne (by simp [recBytes_ne_nil])]
            simp only [Bool.not_true, Bool.false_eq_true, if_false]
            rw [readRecord_ok junk (h r (by simp))]
          rw [hread]
          simp only [List.take_succ_cons, fileBytes_cons, List.append_cancel_left_eq]
          rcases h4 with ⟨h4, h5⟩ | ⟨h4, h5⟩
          · exact .inl ⟨h4, by rw [h5]⟩
          · exact .inr ⟨by simpa using h4, by rw [h5]⟩
      · have hpr : p <+: recBytes r :=
          List.prefix_of_prefix_length_le hp (List.prefix_append _ _) (by omega)
        refine ⟨0, by simp, by simp [fileBytes], ?_, ?_⟩
        · intro _
          simp only [List.take_succ_cons, fileBytes_cons, List.length_append]; omega
        · by_cases hp0 : p = []
          · subst hp0
            exact .inl ⟨rfl, rfl⟩
          · refine .inr ⟨by simpa [fileBytes] using hp0, ?_⟩
            obtain ⟨s, hs⟩ := readRecord_cut junk hj (h r (by simp)) p hpr hp0 (by
              rintro rfl; omega)
            rw [readAll, Stream.hasMore_ne hp0]
            simp only [Bool.not_true, Bool.false_eq_true, if_false, hs]
            rfl

/-! ### Writing -/

theorem Out.open_ok {Ω : Faults} {name : Bytes} {o o' : Out} {u : Unit}
    (h : o.open Ω name = (.ok u, o')) :
    o.handle = none ∧ o' = ⟨some name, o.world.set name (some [])⟩ := by
  unfold Out.open at h
  split at h
  · cases h
  · rename_i hh
    split at h
    · cases h; exact ⟨hh, rfl⟩
    · cases h

theorem Out.write_ok {Ω : Faults} {bs : Bytes} {o o' : Out} {u : Unit}
    (h : o.write Ω bs = (.ok u, o')) : ∃ name, o.handle = some name ∧ o' = ⟨some name,
      o.world.set name (some ((o.world.files name).getD [] ++ bs))⟩ := by
  unfold Out.write at h
  split at h
  · cases h
  · rename_i name hh
    simp only at h
    split at h
    · cases h; exact ⟨name, hh, by rw [hh]⟩
    · cases h

theorem Out.close_ok {Ω : Faults} {o o' : Out} {u : Unit} (h : o.close Ω = (.ok u, o')) :
    ∃ name, o.handle = some name ∧ o' = ⟨none, o.world.next⟩ := by
  unfold Out.close at h
  split at h
  · cases h
  · rename_i name hh
    simp only at h
    split at h
    · cases h; exact ⟨name, hh, rfl⟩
    · cases h

theorem Out.writeRecord_ok {Ω : Faults} {r : Bytes} {o o' : Out} {u : Unit}
    (h : o.writeRecord Ω r = (.ok u, o')) : r.length < 2 ^ 31 ∧ ∃ name, o.handle = some name ∧
      o' = ⟨some name, o.world.set name (some ((o.world.files name).getD [] ++ recBytes r))⟩ := by
  unfold Out.writeRecord at h
  split at h
  · rename_i bs hb
    obtain ⟨h1, rfl⟩ := encodeRecord_ok hb
    exact ⟨h1, Out.write_ok h⟩
  · cases h
  · cases h
  · cases h

@[simp] theorem World.set_same (w : World) (name : Bytes) (c : Option Bytes) :
    (w.set name c).files name = c := by simp [World.set]

theorem World.set_other (w : World) {name n : Bytes} (c : Option Bytes) (h : n ≠ name) :
    (w.set name c).files n = w.files n := by simp [World.set, h]

@[simp] theorem World.next_files (w : World) : w.next.files = w.files := rfl

/-- Records appended to an open file by successful writes. -/
theorem Out.writeAll_ok {Ω : Faults} : ∀ (rs : List Bytes) (o o' : Out) (u : Unit) (name c : Bytes),
    o.writeAll (fun r o => o.writeRecord Ω r) rs = (.ok u, o') → o.handle = some name →
    o.world.files name = some c →
    (∀ r ∈ rs, r.length < 2 ^ 31) ∧ o'.handle = some name ∧
      o'.world.files name = some (c ++ fileBytes rs) ∧
      ∀ n, n ≠ name → o'.world.files n = o.world.files n := by
  intro rs
  induction rs with
  | nil =>
    intro o o' u name c h hh hc
    simp only [Out.writeAll, Prod.mk.injEq] at h
    obtain ⟨-, rfl⟩ := h
    simp [hh, hc, fileBytes]
  | cons r rs ih =>
    intro o o' u name c h hh hc
    rw [Out.writeAll] at h
    split at h
    · rename_i o1 hw
      obtain ⟨hl, name', hh', rfl⟩ := Out.writeRecord_ok hw
      rw [hh] at hh'
      cases hh'
      obtain ⟨h1, h2, h3, h4⟩ := ih _ _ _ name (c ++ recBytes r) h rfl (by simp [hc])
      refine ⟨?_, h2, ?_, ?_⟩
      · intro x hx
        rcases List.mem_cons.1 hx with rfl | hx
        · exact hl
        · exact h1 x hx
      · rw [h3, fileBytes_cons, List.append_assoc]
      · intro n hn
        rw [h4 n hn, World.set_other _ _ hn]
    · rename_i hno
      exact absurd h (hno _ _)

theorem writeFile_ok {Ω : Faults} {name : Bytes} {rs : List Bytes} {o o' : Out} {u : Unit}
    (h : writeFile Ω (fun r o => o.writeRecord Ω r) name rs o = (.ok u, o')) :
    (∀ r ∈ rs, r.length < 2 ^ 31) ∧ o'.handle = none ∧
      o'.world.files name = some (fileBytes rs) ∧
      ∀ n, n ≠ name → o'.world.files n = o.world.files n := by
  unfold writeFile at h
  split at h
  · rename_i o1 h1
    obtain ⟨-, rfl⟩ := Out.open_ok h1
    split at h
    · rename_i o2 h2
      obtain ⟨a, b, c, d⟩ := Out.writeAll_ok rs _ _ _ name [] h2 rfl (by simp)
      obtain ⟨name', hn, rfl⟩ := Out.close_ok h
      refine ⟨a, rfl, by simpa using c, ?_⟩
      intro n hn
      have := d n hn
      simp only [World.next_files]
      rw [this, World.set_other _ _ hn]
    · rename_i hno
      exact absurd h (hno _ _)
  · rename_i hno
    exact absurd h (hno _ _)

/-- Whatever fails while records are appended, the file holds a prefix of what a complete
run would have left. -/
theorem Out.writeAll_prefix {Ω : Faults} : ∀ (rs : List Bytes) (o : Out) (name c : Bytes),
    o.handle = some name → o.world.files name = some c →
    (o.writeAll (fun r o => o.writeRecord Ω r) rs).2.handle = some name ∧
    ∃ c', (o.writeAll (fun r o => o.writeRecord Ω r) rs).2.world.files name = some c' ∧
      c' <+: c ++ fileBytes rs := by
  intro rs
  induction rs with
  | nil => intro o name c hh hc; exact ⟨hh, c, hc, by simp [fileBytes]⟩
  | cons r rs ih =>
    intro o name c hh hc
    have hcr : c ++ recBytes r <+: c ++ fileBytes (r :: rs) := by
      rw [fileBytes_cons, ← List.append_assoc]
      exact List.prefix_append _ _
    by_cases hl : r.length < 2 ^ 31
    · by_cases hok : Ω.ok o.world.tick = true
      · have hw : o.writeRecord Ω r = (.ok (),
            ⟨some name, o.world.set name (some (c ++ recBytes r))⟩) := by
          rw [Out.writeRecord, encodeRecord_eq hl]
          simp only [Out.write, hh, hok, if_true, hc, Option.getD_some]
        simp only [Out.writeAll, hw]
        obtain ⟨h1, c', h2, h3⟩ := ih ⟨some name, o.world.set name (some (c ++ recBytes r))⟩ name
          (c ++ recBytes r) rfl (by simp)
        refine ⟨h1, c', h2, ?_⟩
        rw [fileBytes_cons, ← List.append_assoc]
        exact h3
      · have hw : o.writeRecord Ω r = (.err .internal,
            ⟨some name, o.world.set name (some ((c ++ recBytes r).take (Ω.kept o.world.tick)))⟩) := by
          rw [Out.writeRecord, encodeRecord_eq hl]
          simp only [Out.write, hh, hok, Bool.false_eq_true, if_false, hc, Option.getD_some]
        simp only [Out.writeAll, hw]
        exact ⟨by simp, _, by simp; rfl, (List.take_prefix _ _).trans hcr⟩
    · have hw : o.writeRecord Ω r = (.ub, o) := by
        rw [Out.writeRecord, encodeRecord, if_neg hl]
      simp only [Out.writeAll, hw]
      exact ⟨hh, c, hc, List.prefix_append _ _⟩

theorem writeFile_prefix (Ω : Faults) (name : Bytes) (rs : List Bytes) (o : Out) :
    (writeFile Ω (fun r o => o.writeRecord Ω r) name rs o).2.world.files name =
      o.world.files name ∨
    ∃ c, (writeFile Ω (fun r o => o.writeRecord Ω r) name rs o).2.world.files name = some c ∧
      c <+: fileBytes rs := by
  unfold writeFile
  split
  · rename_i o1 h1
    obtain ⟨-, rfl⟩ := Out.open_ok h1
    right
    obtain ⟨hh, c, hc, hp⟩ := Out.writeAll_prefix (Ω := Ω) rs
      ⟨some name, o.world.set name (some [])⟩ name [] rfl (by simp)
    rw [List.nil_append] at hp
    split
    · rename_i o2 h2
      rw [h2] at hh hc
      simp only at hh hc
      unfold Out.close
      rw [hh]
      simp only
      split
      · exact ⟨c, hc, hp⟩
      · refine ⟨c.take (Ω.kept o2.world.tick), ?_, (List.take_prefix _ _).trans hp⟩
        simp [hc]
    · exact ⟨c, hc, hp⟩
  · left
    unfold Out.open at *
    split <;> rename_i hh
    · simp
    · split <;> rename_i hk
      · simp_all
      · simp

/-- Without faults a list of short records is written. -/
theorem writeFile_none (name : Bytes) (rs : List Bytes) (w : World)
    (h : ∀ r ∈ rs, r.length < 2 ^ 31) :
    ∃ o', writeFile .none (fun r o => o.writeRecord .none r) name rs ⟨none, w⟩ = (.ok (), o') := by
  have key : ∀ (rs : List Bytes) (o : Out), (∀ r ∈ rs, r.length < 2 ^ 31) → o.handle = some name →
      ∃ o', o.writeAll (fun r o => o.writeRecord .none r) rs = (.ok (), o') ∧
        o'.handle = some name := by
    intro rs
    induction rs with
    | nil => intro o _ hh; exact ⟨o, rfl, hh⟩
    | cons r rs ih =>
      intro o h hh
      have hw : ∃ o1, o.writeRecord .none r = (.ok (), o1) ∧ o1.handle = some name := by
        rw [Out.writeRecord, encodeRecord_eq (h r (by simp))]
        simp only [Out.write, hh, Faults.none, if_true]
        exact ⟨_, rfl, rfl⟩
      obtain ⟨o1, hw, h1⟩ := hw
      simp only [Out.writeAll, hw]
      exact ih o1 (fun r hr => h r (List.mem_cons_of_mem _ hr)) h1
  have ho : Out.open .none name ⟨none, w⟩ = (.ok (), ⟨some name, w.set name (some [])⟩) := rfl
  obtain ⟨o', h1, h2⟩ := key rs ⟨some name, w.set name (some [])⟩ h rfl
  refine ⟨⟨none, o'.world.next⟩, ?_⟩
  simp only [writeFile, ho, h1]
  simp only [Out.close, h2, Faults.none, if_true]

end PJC.Rec
