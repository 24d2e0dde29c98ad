import Verif.Model.Wire
import Verif.Lemmas.RecordIO
/-
The wire format is injective on lists of fields.
-/
namespace PJC.Wire

theorem varintBytes_prefix : ∀ (fuel n m : Nat) (x y : Bytes), n < 128 ^ fuel → m < 128 ^ fuel →
    Rec.varintBytes fuel n ++ x = Rec.varintBytes fuel m ++ y → n = m ∧ x = y := by
  intro fuel
  induction fuel with
  | zero =>
    intro n m x y hn hm h
    simp only [pow_zero, Nat.lt_one_iff] at hn hm
    subst hn hm
    exact ⟨rfl, by simpa [Rec.varintBytes] using h⟩
  | succ f ih =>
    intro n m x y hn hm h
    rw [pow_succ] at hn hm
    rw [Rec.varintBytes, Rec.varintBytes] at h
    by_cases h1 : n < 128 <;> by_cases h2 : m < 128
    · rw [if_pos h1, if_pos h2] at h
      simp only [List.singleton_append, List.cons.injEq] at h
      have := congrArg Fin.val h.1
      rw [Rec.byte_val (by omega), Rec.byte_val (by omega)] at this
      exact ⟨this, h.2⟩
    · rw [if_pos h1, if_neg h2] at h
      simp only [List.singleton_append, List.cons_append, List.cons.injEq] at h
      have := congrArg Fin.val h.1
      rw [Rec.byte_val (by omega), Rec.byte_val (by omega)] at this
      omega
    · rw [if_neg h1, if_pos h2] at h
      simp only [List.singleton_append, List.cons_append, List.cons.injEq] at h
      have := congrArg Fin.val h.1
      rw [Rec.byte_val (by omega), Rec.byte_val (by omega)] at this
      omega
    · rw [if_neg h1, if_neg h2] at h
      simp only [List.cons_append, List.cons.injEq] at h
      have h3 := congrArg Fin.val h.1
      rw [Rec.byte_val (by omega), Rec.byte_val (by omega)] at h3
      obtain ⟨h4, h5⟩ := ih (n / 128) (m / 128) x y
        ((Nat.div_lt_iff_lt_mul (by norm_num)).2 hn) ((Nat.div_lt_iff_lt_mul (by norm_num)).2 hm) h.2
      exact ⟨by omega, h5⟩

theorem varint_prefix {n m : Nat} {x y : Bytes} (hn : n < 2 ^ 64) (hm : m < 2 ^ 64)
    (h : varint n ++ x = varint m ++ y) : n = m ∧ x = y :=
  varintBytes_prefix 10 n m x y (lt_of_lt_of_le hn (by norm_num)) (lt_of_lt_of_le hm (by norm_num)) h

theorem varint_ne_nil (n : Nat) : varint n ≠ [] := by
  unfold varint Rec.varintBytes
  split <;> simp

/-- Sizes that fit: field numbers below 2^29, values and lengths below 2^64. -/
def Field.Fits : Field → Prop
  | .varint num v => num < 2 ^ 29 ∧ v < 2 ^ 64
  | .len num b => num < 2 ^ 29 ∧ b.length < 2 ^ 64

theorem Field.enc_prefix {f g : Field} {x y : Bytes} (hf : f.Fits) (hg : g.Fits)
    (h : f.enc ++ x = g.enc ++ y) : f = g ∧ x = y := by
  cases f with
  | varint a v =>
    cases g with
    | varint b w =>
      simp only [Field.enc, List.append_assoc] at h
      obtain ⟨h1, h2⟩ := varint_prefix (by have := hf.1; omega) (by have := hg.1; omega) h
      obtain ⟨h3, h4⟩ := varint_prefix hf.2 hg.2 h2
      exact ⟨by rw [h3, show a = b by omega], h4⟩
    | len b c =>
      simp only [Field.enc, List.append_assoc] at h
      obtain ⟨h1, h2⟩ := varint_prefix (by have := hf.1; omega) (by have := hg.1; omega) h
      omega
  | len a d =>
    cases g with
    | varint b w =>
      simp only [Field.enc, List.append_assoc] at h
      obtain ⟨h1, h2⟩ := varint_prefix (by have := hf.1; omega) (by have := hg.1; omega) h
      omega
    | len b c =>
      simp only [Field.enc, List.append_assoc] at h
      obtain ⟨h1, h2⟩ := varint_prefix (by have := hf.1; omega) (by have := hg.1; omega) h
      obtain ⟨h3, h4⟩ := varint_prefix hf.2 hg.2 h2
      obtain ⟨h5, h6⟩ := List.append_inj h4 h3
      exact ⟨by rw [h5, show a = b by omega], h6⟩

theorem Field.enc_ne_nil (f : Field) : f.enc ≠ [] := by
  cases f <;> simp [Field.enc, varint_ne_nil]

theorem enc_nil : enc [] = [] := rfl
theorem enc_cons (f : Field) (fs : List Field) : enc (f :: fs) = f.enc ++ enc fs := rfl

/-- Serialization is injective on lists of fields. -/
theorem enc_injective : ∀ {fs gs : List Field}, (∀ f ∈ fs, f.Fits) → (∀ g ∈ gs, g.Fits) →
    enc fs = enc gs → fs = gs
  | [], [], _, _, _ => rfl
  | [], g :: gs, _, _, h => by
    rw [enc_nil, enc_cons] at h
    exact absurd (List.append_eq_nil_iff.1 h.symm).1 g.enc_ne_nil
  | f :: fs, [], _, _, h => by
    rw [enc_nil, enc_cons] at h
    exact absurd (List.append_eq_nil_iff.1 h).1 f.enc_ne_nil
  | f :: fs, g :: gs, hf, hg, h => by
    rw [enc_cons, enc_cons] at h
    obtain ⟨h1, h2⟩ := Field.enc_prefix (hf f (by simp)) (hg g (by simp)) h
    rw [h1, enc_injective (fun x hx => hf x (by simp [hx])) (fun x hx => hg x (by simp [hx])) h2]

/-- The fields of a message all fit. -/
def Fits (fs : List Field) : Prop := (∀ f ∈ fs, f.Fits) ∧ (enc fs).length < 2 ^ 64

/-- A transcript determines statement and first message. -/
theorem transcript_injective {label : Bytes} {s m s' m' : List Field} (hs : Fits s) (hm : Fits m)
    (hs' : Fits s') (hm' : Fits m') (h : transcript label s m = transcript label s' m') :
    s = s' ∧ m = m' := by
  unfold transcript at h
  simp only [List.append_assoc] at h
  have h := List.append_cancel_left h
  obtain ⟨h1, h2⟩ := varint_prefix hs.2 hs'.2 h
  obtain ⟨h3, h4⟩ := List.append_inj h2 h1
  obtain ⟨h5, h6⟩ := varint_prefix hm.2 hm'.2 h4
  exact ⟨enc_injective hs.1 hs'.1 h3, enc_injective hm.1 hm'.1 h6⟩

/-! ### Picking fields out of a message -/

/-- The fields with a given number. -/
def pick (k : Nat) (fs : List Field) : List Field := fs.filter (fun f => f.num = k)

@[simp] theorem pick_append (k : Nat) (a b : List Field) : pick k (a ++ b) = pick k a ++ pick k b := by
  simp [pick]

@[simp] theorem pick_nil (k : Nat) : pick k [] = [] := rfl

theorem pick_bytesField (k n : Nat) (b : Bytes) :
    pick k (bytesField n b) = if n = k then bytesField n b else [] := by
  unfold pick bytesField
  by_cases h : n = k <;> by_cases hb : b = [] <;> simp [h, hb, Field.num]

theorem pick_int64Field (k n : Nat) (v : Int) :
    pick k (int64Field n v) = if n = k then int64Field n v else [] := by
  unfold pick int64Field
  by_cases h : n = k <;> by_cases hb : v = 0 <;> simp [h, hb, Field.num]

theorem pick_uint64Field (k n : Nat) (v : Nat) :
    pick k (uint64Field n v) = if n = k then uint64Field n v else [] := by
  unfold pick uint64Field
  by_cases h : n = k <;> by_cases hb : v = 0 <;> simp [h, hb, Field.num]

theorem pick_msgField (k n : Nat) (fs : List Field) :
    pick k (msgField n fs) = if n = k then msgField n fs else [] := by
  unfold pick msgField
  by_cases h : n = k <;> simp [h, Field.num]

theorem pick_repBytes (k n : Nat) (bs : List Bytes) :
    pick k (repBytes n bs) = if n = k then repBytes n bs else [] := by
  unfold pick repBytes
  by_cases h : n = k
  · rw [if_pos h, List.filter_eq_self]
    intro a ha
    obtain ⟨b, _, rfl⟩ := List.mem_map.1 ha
    simp [Field.num, h]
  · rw [if_neg h, List.filter_eq_nil_iff]
    intro a ha
    obtain ⟨b, _, rfl⟩ := List.mem_map.1 ha
    simp [Field.num, h]

theorem pick_repMsg (k n : Nat) (ms : List (List Field)) :
    pick k (repMsg n ms) = if n = k then repMsg n ms else [] := by
  have := pick_repBytes k n (ms.map enc)
  simpa [repBytes, repMsg, List.map_map, Function.comp_def] using this

theorem bytesField_inj {n : Nat} {a b : Bytes} (h : bytesField n a = bytesField n b) : a = b := by
  unfold bytesField at h
  by_cases ha : a = [] <;> by_cases hb : b = [] <;> simp_all

theorem int64Field_inj {n : Nat} {a b : Int} (ha : -2 ^ 63 ≤ a ∧ a < 2 ^ 63)
    (hb : -2 ^ 63 ≤ b ∧ b < 2 ^ 63) (h : int64Field n a = int64Field n b) : a = b := by
  unfold int64Field at h
  by_cases h1 : a = 0 <;> by_cases h2 : b = 0
  · omega
  · simp [h1, h2] at h
  · simp [h1, h2] at h
  · rw [if_neg h1, if_neg h2] at h
    simp only [List.cons.injEq, Field.varint.injEq, true_and, and_true] at h
    omega

theorem uint64Field_inj {n : Nat} {a b : Nat} (h : uint64Field n a = uint64Field n b) : a = b := by
  unfold uint64Field at h
  by_cases ha : a = 0 <;> by_cases hb : b = 0 <;> simp_all

theorem repBytes_inj {n : Nat} {a b : List Bytes} (h : repBytes n a = repBytes n b) : a = b := by
  unfold repBytes at h
  exact (List.map_inj_right (fun x y hxy => by simpa using hxy)).1 h

theorem msgField_inj {n : Nat} {a b : List Field} (ha : ∀ f ∈ a, f.Fits) (hb : ∀ f ∈ b, f.Fits)
    (h : msgField n a = msgField n b) : a = b := by
  unfold msgField at h
  simp only [List.cons.injEq, Field.len.injEq, true_and, and_true] at h
  exact enc_injective ha hb h

theorem repMsg_inj {n : Nat} : ∀ {a b : List (List Field)}, (∀ m ∈ a, ∀ f ∈ m, f.Fits) →
    (∀ m ∈ b, ∀ f ∈ m, f.Fits) → repMsg n a = repMsg n b → a = b
  | [], [], _, _, _ => rfl
  | [], _ :: _, _, _, h => by simp [repMsg] at h
  | _ :: _, [], _, _, h => by simp [repMsg] at h
  | x :: xs, y :: ys, ha, hb, h => by
    simp only [repMsg, List.map_cons, List.cons.injEq, Field.len.injEq, true_and] at h
    rw [enc_injective (ha x (by simp)) (hb y (by simp)) h.1,
      repMsg_inj (n := n) (fun m hm => ha m (by simp [hm])) (fun m hm => hb m (by simp [hm])) h.2]

/-! ### Sizes: a message whose encoding is short has only fields that fit -/

theorem fits_of_short {fs : List Field} (h1 : ∀ f ∈ fs, f.num < 2 ^ 29)
    (h2 : ∀ f ∈ fs, ∀ (n v : Nat), f = .varint n v → v < 2 ^ 64) (h : (enc fs).length < 2 ^ 64) :
    ∀ f ∈ fs, f.Fits := by
  induction fs with
  | nil => simp
  | cons g fs ih =>
    rw [enc_cons, List.length_append] at h
    intro f hf
    rcases List.mem_cons.1 hf with rfl | hf
    · have hn := h1 f (by simp)
      cases f with
      | varint n v => exact ⟨hn, h2 _ (by simp) n v rfl⟩
      | len n b =>
        refine ⟨hn, ?_⟩
        simp only [Field.enc, List.length_append] at h
        omega
    · exact ih (fun f hf => h1 f (by simp [hf])) (fun f hf => h2 f (by simp [hf])) (by omega) f hf

/-- Field numbers and varint payloads are in range. -/
def WF (fs : List Field) : Prop :=
  ∀ f ∈ fs, f.num < 2 ^ 29 ∧ ∀ (n v : Nat), f = .varint n v → v < 2 ^ 64

theorem WF.fits {fs : List Field} (w : WF fs) (h : (enc fs).length < 2 ^ 64) : ∀ f ∈ fs, f.Fits :=
  fits_of_short (fun f hf => (w f hf).1) (fun f hf => (w f hf).2) h

theorem WF.append {a b : List Field} (ha : WF a) (hb : WF b) : WF (a ++ b) := by
  intro f hf
  rcases List.mem_append.1 hf with h | h
  · exact ha f h
  · exact hb f h

theorem wf_bytesField {n : Nat} (hn : n < 2 ^ 29) (b : Bytes) : WF (bytesField n b) := by
  intro f hf
  unfold bytesField at hf
  split at hf
  · simp at hf
  · rw [List.mem_singleton] at hf
    subst hf
    exact ⟨hn, fun _ _ h => by cases h⟩

theorem wf_int64Field {n : Nat} (hn : n < 2 ^ 29) (v : Int) : WF (int64Field n v) := by
  intro f hf
  unfold int64Field at hf
  split at hf
  · simp at hf
  · rw [List.mem_singleton] at hf
    subst hf
    refine ⟨hn, fun _ _ h => ?_⟩
    cases h
    omega

theorem wf_uint64Field {n : Nat} (hn : n < 2 ^ 29) {v : Nat} (hv : v < 2 ^ 64) :
    WF (uint64Field n v) := by
  intro f hf
  unfold uint64Field at hf
  split at hf
  · simp at hf
  · rw [List.mem_singleton] at hf
    subst hf
    refine ⟨hn, fun _ _ h => ?_⟩
    cases h
    exact hv

theorem wf_msgField {n : Nat} (hn : n < 2 ^ 29) (fs : List Field) : WF (msgField n fs) := by
  intro f hf
  rw [msgField, List.mem_singleton] at hf
  subst hf
  exact ⟨hn, fun _ _ h => by cases h⟩

theorem wf_repBytes {n : Nat} (hn : n < 2 ^ 29) (bs : List Bytes) : WF (repBytes n bs) := by
  intro f hf
  obtain ⟨b, _, rfl⟩ := List.mem_map.1 hf
  exact ⟨hn, fun _ _ h => by cases h⟩

theorem wf_repMsg {n : Nat} (hn : n < 2 ^ 29) (ms : List (List Field)) : WF (repMsg n ms) := by
  intro f hf
  obtain ⟨b, _, rfl⟩ := List.mem_map.1 hf
  exact ⟨hn, fun _ _ h => by cases h⟩

theorem enc_append (a b : List Field) : enc (a ++ b) = enc a ++ enc b := by
  simp [enc]

theorem enc_msgField (n : Nat) (fs : List Field) : (enc fs).length ≤ (enc (msgField n fs)).length := by
  simp only [msgField, enc, List.flatMap_cons, List.flatMap_nil, Field.enc, List.append_nil,
    List.length_append]
  omega

theorem enc_repMsg (n : Nat) : ∀ {ms : List (List Field)} {m : List Field}, m ∈ ms →
    (enc m).length ≤ (enc (repMsg n ms)).length
  | x :: ms, m, hm => by
    have e : enc (repMsg n (x :: ms)) = enc (msgField n x) ++ enc (repMsg n ms) := by
      rw [← enc_append]; rfl
    rw [e, List.length_append]
    rcases List.mem_cons.1 hm with rfl | hm
    · have := enc_msgField n m
      omega
    · have := enc_repMsg n hm
      omega

/-- Equal sub-messages of bounded size have equal fields. -/
theorem msgField_inj' {n : Nat} {a b : List Field} (wa : WF a) (wb : WF b)
    (h : msgField n a = msgField n b) (hl : (enc (msgField n a)).length < 2 ^ 64) : a = b := by
  have h1 := enc_msgField n a
  have h2 : (enc b).length < 2 ^ 64 := by
    have := enc_msgField n b
    rw [← h] at this
    omega
  exact msgField_inj (wa.fits (by omega)) (wb.fits h2) h

/-- Two transcripts with the same label and of bounded size: equal statements and first messages. -/
theorem transcript_injective' {label : Bytes} {s m s' m' : List Field} (hs : WF s) (hm : WF m)
    (hs' : WF s') (hm' : WF m') (hl : (transcript label s m).length < 2 ^ 64)
    (h : transcript label s m = transcript label s' m') : s = s' ∧ m = m' := by
  have hl' := hl
  rw [h] at hl'
  unfold transcript at hl hl'
  simp only [List.length_append] at hl hl'
  exact transcript_injective ⟨hs.fits (by omega), by omega⟩ ⟨hm.fits (by omega), by omega⟩
    ⟨hs'.fits (by omega), by omega⟩ ⟨hm'.fits (by omega), by omega⟩ h

theorem transcript_length {label : Bytes} {s m : List Field} :
    (enc s).length ≤ (transcript label s m).length ∧ (enc m).length ≤ (transcript label s m).length := by
  unfold transcript
  simp only [List.length_append]
  omega

end PJC.Wire
