import Verif.Model.KeyUtil
import Verif.Lemmas.WireParse
import Verif.Props.RecordIO
import Verif.Props.Ec
import Verif.Props.Context
/-
C64, C77, C78: key files, files of protos, point utilities.
-/
namespace PJC.KeyUtil

open Wire Rec

set_option linter.unusedSectionVars false

variable {G : Type} [AddCommGroup G] [DecidableEq G]

/-! ### Files of protos -/

/-- A message protobuf can parse again: field numbers from 1 below 2^29, integers below 2^64,
byte strings below 2^31 - 16 bytes. -/
def Parsable (m : List Field) : Prop := ∀ f ∈ m, f.Parsable

theorem readRecord_file (junk : Nat) {r : Bytes} (hr : r.length < 2 ^ 31) (rs : List Bytes) :
    (readRecord junk ⟨fileBytes (r :: rs), false⟩).1 = .ok r := by
  rw [fileBytes_cons, readRecord_ok junk hr]

/-- **C64/C77**: a message written to a file is read back. -/
theorem C77_proto_file_round_trip (Ω : Faults) (m : List Field) (name : Bytes) (w w' : World)
    (junk : Nat) (junkMsg : Bytes → List Field) (hm : Parsable m)
    (h : writeProtoToFile Ω m name w = (.ok (), w')) :
    readProtoFromFile junk junkMsg w'.files name = .ok m ∧
      ∀ n, n ≠ name → w'.files n = w.files n := by
  simp only [writeProtoToFile, Prod.mk.injEq] at h
  obtain ⟨h1, rfl⟩ := h
  obtain ⟨a, b, c, d⟩ := writeFile_ok (eq_pair h1)
  refine ⟨?_, d⟩
  have hl : (KeyUtil.toString m).length < 2 ^ 31 := a _ (by simp)
  rw [readProtoFromFile, openRead, c]
  simp only [Res.ok_bind, readRecord_file junk hl, Res.pure_eq]
  rw [KeyUtil.toString, fromString_enc junkMsg hm]

/-- **C77**.  A list of messages written to a file is read back by `ReadProtosFromFile` in
order, and its first message by `ReadProtoFromFile`; no other file changes.  Writing succeeds if
no system call fails and every message is shorter than 2^31 bytes. -/
theorem C77_proto_list_round_trip (Ω : Faults) (ms : List (List Field)) (name : Bytes) (w w' : World)
    (junk : Nat) (junkMsg : Bytes → List Field) (hm : ∀ m ∈ ms, Parsable m)
    (h : writeRecordsToFile Ω name ms w = (.ok (), w')) :
    readProtosFromFile junk junkMsg w'.files name = .ok ms ∧
      (∀ m rest, ms = m :: rest → readProtoFromFile junk junkMsg w'.files name = .ok m) ∧
      ∀ n, n ≠ name → w'.files n = w.files n := by
  simp only [writeRecordsToFile, Prod.mk.injEq] at h
  obtain ⟨h1, rfl⟩ := h
  obtain ⟨a, b, c, d⟩ := writeFile_ok (eq_pair h1)
  have hmap : (ms.map KeyUtil.toString).map (fromString junkMsg) = ms := by
    rw [List.map_map]
    conv_rhs => rw [← List.map_id ms]
    exact List.map_congr_left fun m hmem => fromString_enc junkMsg (hm m hmem)
  refine ⟨?_, ?_, d⟩
  · rw [readProtosFromFile, openRead, c]
    simp only [Res.ok_bind]
    rw [readAll_ok junk _ a _ (Nat.lt_succ_self _)]
    simp only [Res.ok_bind, Res.pure_eq, hmap]
  · rintro m rest rfl
    rw [readProtoFromFile, openRead, c, List.map_cons]
    simp only [Res.ok_bind, readRecord_file junk (a (KeyUtil.toString m) (by simp)), Res.pure_eq]
    rw [KeyUtil.toString, fromString_enc junkMsg (hm m (by simp))]

theorem C77_write_ok (ms : List (List Field)) (name : Bytes) (w : World)
    (h : ∀ m ∈ ms, (enc m).length < 2 ^ 31) : (writeRecordsToFile .none name ms w).1 = .ok () := by
  obtain ⟨o', ho⟩ := writeFile_none name (ms.map KeyUtil.toString) w (by
    intro r hr
    obtain ⟨m, hm, rfl⟩ := List.mem_map.1 hr
    exact h m hm)
  simp only [writeRecordsToFile, ho]

/-- Two messages, one of them with a negative integer, satisfy the hypotheses of C77. -/
example : ∃ w', writeRecordsToFile .none (str "f")
      [ecKeyProto (-5) [1, 2], elGamalCiphertextProto [7] (List.replicate 200 9)]
      ⟨fun _ => none, 0⟩ = (.ok (), w') ∧
    Parsable (ecKeyProto (-5) [1, 2]) ∧ Parsable (elGamalCiphertextProto [7] (List.replicate 200 9)) := by
  refine ⟨_, eq_pair (C77_write_ok _ _ _ ?_), ?_, ?_⟩
  · intro m hm
    simp only [List.mem_cons, List.not_mem_nil, or_false] at hm
    rcases hm with rfl | rfl <;> decide +kernel
  · intro f hf
    rw [ecKeyProto, List.mem_append] at hf
    rcases hf with hf | hf
    · exact parsable_int64Field (by norm_num) (by norm_num) f hf
    · exact parsable_bytesField (by norm_num) (by norm_num) (by norm_num) f hf
  · intro f hf
    rw [elGamalCiphertextProto, List.mem_append] at hf
    rcases hf with hf | hf
    · exact parsable_bytesField (by norm_num) (by norm_num) (by norm_num) f hf
    · exact parsable_bytesField (by norm_num) (by norm_num) (by rw [List.length_replicate]; norm_num) f hf

/-- **C77**: reading a missing file reports NOT_FOUND. -/
theorem C77_missing_file (junk : Nat) (junkMsg : Bytes → List Field) (files : Bytes → Option Bytes)
    (name : Bytes) (h : files name = none) :
    readProtoFromFile junk junkMsg files name = .err .notFound ∧
      readProtosFromFile junk junkMsg files name = .err .notFound := by
  simp [readProtoFromFile, readProtosFromFile, openRead, h]

/-- A file whose only record is not a well-formed message is read without an error: the caller
gets what protobuf left in the object (`FromString` ignores the result of parsing). -/
theorem C77_malformed_record_accepted (junk : Nat) (junkMsg : Bytes → List Field)
    (files : Bytes → Option Bytes) (name raw : Bytes) (hl : raw.length < 2 ^ 31)
    (hf : files name = fileOf [raw]) (hp : parse raw = none) :
    readProtoFromFile junk junkMsg files name = .ok (junkMsg raw) := by
  rw [fileOf_eq (by simpa using hl)] at hf
  rw [readProtoFromFile, openRead, hf]
  simp only [Res.ok_bind, readRecord_file junk hl, Res.pure_eq, fromString, hp]

/-- A record promising three bytes and holding one is such a record. -/
example : parse [18, 3, 1] = none := by decide

/-! ### EC keys -/

theorem getBytes_ecKey (c : Int) (k : Bytes) : getBytes 2 (ecKeyProto c k) = k := by
  simp only [getBytes, ecKeyProto, List.filterMap_append, filterMap_bytes_int64Field,
    filterMap_bytes_bytesField, List.nil_append, if_true]
  by_cases hk : k = [] <;> simp [hk]

theorem getInt32_ecKey {c : Int} (h1 : -2 ^ 31 ≤ c) (h2 : c < 2 ^ 31) (k : Bytes) :
    getInt32 1 (ecKeyProto c k) = c := by
  simp only [getInt32, ecKeyProto, List.filterMap_append, filterMap_int_int64Field,
    filterMap_int_bytesField, List.append_nil, if_true]
  by_cases hc : c = 0
  · simp [hc, Wire.toInt32]
  · simpa [hc] using toInt32_mod h1 h2

theorem toBytes_length_le {k : Int} {L : Nat} {bs : Bytes} (h0 : 0 ≤ k) (hk : k < 256 ^ L)
    (h : BN.toBytes k = .ok bs) : bs.length ≤ L ∧ BN.ofBytes bs = k := by
  rw [BN.toBytes_of_nonneg h0, Res.ok.injEq] at h
  subst h
  refine ⟨BN.natToBytes_length_le ?_, ?_⟩
  · have : (k.toNat : Int) < ((256 ^ L : Nat) : Int) := by
      rw [Int.toNat_of_nonneg h0]; exact_mod_cast hk
    exact_mod_cast this
  · rw [BN.ofBytes_natToBytes, Int.toNat_of_nonneg h0]

/-- **C64**, EC keys.  If `GenerateEcKey` for a curve id succeeds, then the file holds a message
from which `DeserializeEcKey` with the same curve id returns the generated private key, which lies
in [1, order), and with any other curve id refuses with INVALID_ARGUMENT.  Other files are not
touched.  (`create` is `ECGroup::Create`; the order of a curve fits into fewer than 2^31 - 16
bytes.) -/
theorem C64_ec_key (create : Int → Res (EcGroup G)) (Ω : Faults) (draw : Nat) (curveId : Int)
    (name : Bytes) (w w' : World) (junk : Nat) (junkMsg : Bytes → List Field)
    (hid : -2 ^ 31 ≤ curveId ∧ curveId < 2 ^ 31) (L : Nat) (hL : L < 2 ^ 31 - 16)
    (hE : ∀ E, create curveId = .ok E → 1 < E.order ∧ E.order ≤ 256 ^ L)
    (h : generateEcKey create Ω draw curveId name w = (.ok (), w')) :
    ∃ E k m, create curveId = .ok E ∧ E.generatePrivateKey draw = .ok k ∧ 1 ≤ k ∧ k < E.order ∧
      readProtoFromFile junk junkMsg w'.files name = .ok m ∧
      deserializeEcKey curveId m = .ok k ∧
      (∀ c, c ≠ curveId → deserializeEcKey c m = .err .invalidArgument) ∧
      ∀ n, n ≠ name → w'.files n = w.files n := by
  unfold generateEcKey at h
  split at h
  · rename_i m hm
    simp only [Res.bind_eq_ok, Res.pure_eq, Res.ok.injEq] at hm
    obtain ⟨E, hcr, k, hk, bs, hbs, rfl⟩ := hm
    obtain ⟨ho, hoL⟩ := hE E hcr
    have hrange : 1 ≤ k ∧ k < E.order := by
      have := C65_private_key E ho draw
      obtain ⟨r, hr, h1, h2⟩ := this
      rw [hr, Res.ok.injEq] at hk
      subst hk
      exact ⟨h1, h2⟩
    obtain ⟨hlen, hval⟩ := toBytes_length_le (L := L) (by omega)
      (lt_of_lt_of_le hrange.2 (by exact_mod_cast hoL)) hbs
    have hp : Parsable (ecKeyProto curveId bs) := by
      intro f hf
      rw [ecKeyProto, List.mem_append] at hf
      rcases hf with hf | hf
      · exact parsable_int64Field (by norm_num) (by norm_num) f hf
      · exact parsable_bytesField (by norm_num) (by norm_num) (by omega) f hf
    obtain ⟨h1, h2⟩ := C77_proto_file_round_trip Ω _ name w w' junk junkMsg hp h
    refine ⟨E, k, _, hcr, hk, hrange.1, hrange.2, h1, ?_, ?_, h2⟩
    · rw [deserializeEcKey, getInt32_ecKey hid.1 hid.2, getBytes_ecKey, hval]
      simp
    · intro c hc
      rw [deserializeEcKey, getInt32_ecKey hid.1 hid.2, if_pos hc]
  all_goals simp at h

/-- **C64**, a key file with a second key message appended to it: protobuf merges the two, so
the later curve id and the later key count, unless they are absent (zero, empty). -/
theorem C64_appended_ec_key (junkMsg : Bytes → List Field) (c c' : Int) (k k' : Bytes)
    (hc : -2 ^ 31 ≤ c ∧ c < 2 ^ 31) (hc' : -2 ^ 31 ≤ c' ∧ c' < 2 ^ 31)
    (hk : k.length < 2 ^ 31 - 16) (hk' : k'.length < 2 ^ 31 - 16) (d : Int) :
    deserializeEcKey d
        (fromString junkMsg (toString (ecKeyProto c k) ++ toString (ecKeyProto c' k'))) =
      if d = (if c' = 0 then c else c') then .ok (BN.ofBytes (if k' = [] then k else k'))
      else .err .invalidArgument := by
  have hp : ∀ (c : Int) (k : Bytes), k.length < 2 ^ 31 - 16 → Parsable (ecKeyProto c k) := by
    intro c k hk f hf
    rw [ecKeyProto, List.mem_append] at hf
    rcases hf with hf | hf
    · exact parsable_int64Field (by norm_num) (by norm_num) f hf
    · exact parsable_bytesField (by norm_num) (by norm_num) hk f hf
  have hpp : Parsable (ecKeyProto c k ++ ecKeyProto c' k') := by
    intro f hf
    rcases List.mem_append.1 hf with hf | hf
    · exact hp c k hk f hf
    · exact hp c' k' hk' f hf
  have hf : fromString junkMsg (toString (ecKeyProto c k) ++ toString (ecKeyProto c' k')) =
      ecKeyProto c k ++ ecKeyProto c' k' := by
    rw [toString, toString, ← enc_append]
    exact fromString_enc junkMsg hpp
  have hi : getInt32 1 (ecKeyProto c k ++ ecKeyProto c' k') = if c' = 0 then c else c' := by
    have h1 := getInt32_ecKey hc.1 hc.2 k
    have h2 := toInt32_mod hc'.1 hc'.2
    simp only [getInt32, ecKeyProto, List.filterMap_append, filterMap_int_int64Field,
      filterMap_int_bytesField, List.append_nil, if_true] at h1 ⊢
    by_cases h0 : c' = 0
    · simpa [h0] using h1
    · simpa [h0] using h2
  have hb : getBytes 2 (ecKeyProto c k ++ ecKeyProto c' k') = if k' = [] then k else k' := by
    have h1 := getBytes_ecKey c k
    simp only [getBytes, ecKeyProto, List.filterMap_append, filterMap_bytes_int64Field,
      filterMap_bytes_bytesField, List.nil_append, if_true] at h1 ⊢
    by_cases h0 : k' = []
    · simpa [h0] using h1
    · simp [h0]
  rw [hf, deserializeEcKey, hi, hb]
  by_cases hd : d = (if c' = 0 then c else c')
  · rw [if_neg (not_not.2 hd), if_pos hd]
  · rw [if_pos hd, if_neg hd]

example : deserializeEcKey 415 (fromString (fun _ => [])
    (toString (ecKeyProto 714 [9]) ++ toString (ecKeyProto 415 [5]))) = .ok 5 := by
  rw [C64_appended_ec_key _ _ _ _ _ (by norm_num) (by norm_num) (by simp) (by simp)]
  decide

/-! ### ElGamal keys -/

theorem getBytes_pk2 (g y : Bytes) : getBytes 2 (elGamalPublicKeyProto g y) = g := by
  by_cases hg : g = [] <;> by_cases hy : y = [] <;> simp [getBytes, elGamalPublicKeyProto, hg, hy]

theorem getBytes_pk3 (g y : Bytes) : getBytes 3 (elGamalPublicKeyProto g y) = y := by
  by_cases hg : g = [] <;> by_cases hy : y = [] <;> simp [getBytes, elGamalPublicKeyProto, hg, hy]

theorem getBytes_ct1 (u e : Bytes) : getBytes 1 (elGamalCiphertextProto u e) = u := by
  by_cases hg : u = [] <;> by_cases hy : e = [] <;> simp [getBytes, elGamalCiphertextProto, hg, hy]

theorem getBytes_ct2 (u e : Bytes) : getBytes 2 (elGamalCiphertextProto u e) = e := by
  by_cases hg : u = [] <;> by_cases hy : e = [] <;> simp [getBytes, elGamalCiphertextProto, hg, hy]

theorem getBytes_sk (x : Bytes) : getBytes 1 (elGamalSecretKeyProto x) = x := by
  by_cases hg : x = [] <;> simp [getBytes, elGamalSecretKeyProto, hg]

/-- Point encodings are short enough for a protobuf field. -/
def ShortPoints (E : EcGroup G) : Prop := ∀ P bs, E.point2oct P = some bs → bs.length < 2 ^ 31 - 16

theorem ShortPoints.toBytes {E : EcGroup G} (h : ShortPoints E) {P : G} {bs : Bytes}
    (hb : E.toBytesCompressed P = .ok bs) : bs.length < 2 ^ 31 - 16 := by
  unfold EcGroup.toBytesCompressed at hb
  split at hb
  · rename_i bs' h'
    cases hb
    exact h P _ h'
  · cases hb

/-- **C64**: public keys and ciphertexts survive serializing and deserializing; a key or
ciphertext with the point at infinity in it cannot be serialized.  Private keys survive too. -/
theorem C64_elgamal_protos (E : EcGroup G) (hE : E.Lawful) :
    (∀ pk : ElGamal.PublicKey G, pk.g ≠ 0 ∧ pk.y ≠ 0 →
      ∃ m, serializePublicKey E pk = .ok m ∧ deserializePublicKey E m = .ok pk) ∧
    (∀ pk : ElGamal.PublicKey G, ¬ (pk.g ≠ 0 ∧ pk.y ≠ 0) →
      serializePublicKey E pk = .err .internal) ∧
    (∀ c : ElGamal.Ct G, c.u ≠ 0 ∧ c.e ≠ 0 →
      ∃ m, serializeCiphertext E c = .ok m ∧ deserializeCiphertext E m = .ok c) ∧
    (∀ c : ElGamal.Ct G, ¬ (c.u ≠ 0 ∧ c.e ≠ 0) → serializeCiphertext E c = .err .internal) ∧
    (∀ sk : ElGamal.PrivateKey, 0 ≤ sk.x →
      ∃ m, serializePrivateKey sk = .ok m ∧ deserializePrivateKey m = .ok sk) := by
  refine ⟨?_, ?_, ?_, ?_, ?_⟩
  · rintro ⟨g, y⟩ ⟨hg, hy⟩
    obtain ⟨bg, h1, h2⟩ := hE.toBytes_ne hg
    obtain ⟨b, h3, h4⟩ := hE.toBytes_ne hy
    refine ⟨elGamalPublicKeyProto bg b, by simp [serializePublicKey, h1, h3], ?_⟩
    simp only [deserializePublicKey, getBytes_pk2, getBytes_pk3, h2, h4, Res.ok_bind, Res.pure_eq]
  · rintro ⟨g, y⟩ h
    by_cases hg : g = 0
    · subst hg; simp [serializePublicKey, hE.toBytes_zero]
    · by_cases hy : y = 0
      · subst hy
        obtain ⟨bg, h1, h2⟩ := hE.toBytes_ne hg
        simp [serializePublicKey, hE.toBytes_zero, h1]
      · exact absurd ⟨hg, hy⟩ h
  · rintro ⟨u, e⟩ ⟨hg, hy⟩
    obtain ⟨bg, h1, h2⟩ := hE.toBytes_ne hg
    obtain ⟨b, h3, h4⟩ := hE.toBytes_ne hy
    refine ⟨elGamalCiphertextProto bg b, by simp [serializeCiphertext, h1, h3], ?_⟩
    simp only [deserializeCiphertext, getBytes_ct1, getBytes_ct2, h2, h4, Res.ok_bind, Res.pure_eq]
  · rintro ⟨g, y⟩ h
    by_cases hg : g = 0
    · subst hg; simp [serializeCiphertext, hE.toBytes_zero]
    · by_cases hy : y = 0
      · subst hy
        obtain ⟨bg, h1, h2⟩ := hE.toBytes_ne hg
        simp [serializeCiphertext, hE.toBytes_zero, h1]
      · exact absurd ⟨hg, hy⟩ h
  · rintro ⟨x⟩ hx
    refine ⟨_, by rw [serializePrivateKey, BN.toBytes_of_nonneg hx]; rfl, ?_⟩
    rw [deserializePrivateKey, getBytes_sk, BN.ofBytes_natToBytes, Int.toNat_of_nonneg hx]

/-- **C64**, ElGamal keys.  If `GenerateElGamalKeyPair` succeeds with two different file names,
then the two files are read back as a public key `(G, x*G)` and the private key `x`, with `G` the
generator of the curve and `1 ≤ x < order`.  Other files are not touched. -/
theorem C64_elgamal_key_pair (create : Int → Res (EcGroup G)) (Ω : Faults) (draw : Nat)
    (curveId : Int) (pub prv : Bytes) (hne : pub ≠ prv) (w w' : World) (junk : Nat)
    (junkMsg : Bytes → List Field) (L : Nat) (hL : L < 2 ^ 31 - 16)
    (hE : ∀ E, create curveId = .ok E → E.Lawful ∧ ShortPoints E ∧ E.order ≤ 256 ^ L)
    (h : generateElGamalKeyPair create Ω draw curveId pub prv w = (.ok (), w')) :
    ∃ (E : EcGroup G) (x : Int) (mPub mPrv : List Field), create curveId = .ok E ∧ 1 ≤ x ∧ x < E.order ∧
      readProtoFromFile junk junkMsg w'.files pub = .ok mPub ∧
      readProtoFromFile junk junkMsg w'.files prv = .ok mPrv ∧
      deserializePublicKey E mPub = .ok ⟨E.gen, x • E.gen⟩ ∧
      deserializePrivateKey mPrv = .ok ⟨x⟩ ∧
      ∀ n, n ≠ pub → n ≠ prv → w'.files n = w.files n := by
  unfold generateElGamalKeyPair at h
  split at h
  · rename_i mPub mPrv hm
    simp only [Res.bind_eq_ok, Res.pure_eq, Res.ok.injEq, Prod.mk.injEq] at hm
    obtain ⟨E, hcr, kp, hkp, p1, hp1, p2, hp2, rfl, rfl⟩ := hm
    obtain ⟨hlaw, hshort, hoL⟩ := hE E hcr
    simp only [ElGamal.generateKeyPair, Res.bind_eq_ok, Res.pure_eq, Res.ok.injEq] at hkp
    obtain ⟨x, hx, rfl⟩ := hkp
    obtain ⟨k, hk, hx1, hx2⟩ := hlaw.generatePrivateKey_spec draw
    rw [hk, Res.ok.injEq] at hx
    subst hx
    simp only [serializePublicKey, Res.bind_eq_ok, Res.pure_eq, Res.ok.injEq] at hp1
    obtain ⟨bg, hbg, b, hb, rfl⟩ := hp1
    simp only [serializePrivateKey, Res.bind_eq_ok, Res.pure_eq, Res.ok.injEq] at hp2
    obtain ⟨bx, hbx, rfl⟩ := hp2
    obtain ⟨hlen, hval⟩ := toBytes_length_le (L := L) (by omega)
      (lt_of_lt_of_le hx2 (by exact_mod_cast hoL)) hbx
    have hpp : Parsable (elGamalPublicKeyProto bg b) := by
      intro f hf
      rw [elGamalPublicKeyProto, List.mem_append] at hf
      rcases hf with hf | hf
      · exact parsable_bytesField (by norm_num) (by norm_num) (hshort.toBytes hbg) f hf
      · exact parsable_bytesField (by norm_num) (by norm_num) (hshort.toBytes hb) f hf
    have hps : Parsable (elGamalSecretKeyProto bx) :=
      parsable_bytesField (by norm_num) (by norm_num) (by omega)
    split at h
    · rename_i w1 hw1
      obtain ⟨h1, h2⟩ := C77_proto_file_round_trip Ω _ pub w w1 junk junkMsg hpp hw1
      obtain ⟨h3, h4⟩ := C77_proto_file_round_trip Ω _ prv w1 w' junk junkMsg hps h
      refine ⟨E, k, elGamalPublicKeyProto bg b, _, hcr, hx1, hx2, ?_, h3, ?_, ?_, ?_⟩
      · rw [readProtoFromFile, openRead, h4 pub hne] 
        rw [readProtoFromFile, openRead] at h1
        exact h1
      · simp only [deserializePublicKey, getBytes_pk2, getBytes_pk3, (hlaw.toBytes_ok hbg).2,
          (hlaw.toBytes_ok hb).2, Res.ok_bind, Res.pure_eq]
      · rw [deserializePrivateKey, getBytes_sk, hval]
      · intro n hn1 hn2
        rw [h4 n hn2, h2 n hn1]
    · rename_i hno
      exact absurd h (hno _ _)
  all_goals simp at h

/-- **C64, no group**.  When the group cannot be created, `GenerateElGamalKeyPair` ends the same
way (a status is returned, an abort is an abort) and no file is touched. -/
theorem C64_elgamal_no_group (create : Int → Res (EcGroup G)) (Ω : Faults) (draw : Nat)
    (curveId : Int) (pub prv : Bytes) (w : World) :
    (∀ e, create curveId = .err e →
      generateElGamalKeyPair create Ω draw curveId pub prv w = (.err e, w)) ∧
    (create curveId = .crash →
      generateElGamalKeyPair create Ω draw curveId pub prv w = (.crash, w)) := by
  constructor
  · intro e h
    simp only [generateElGamalKeyPair, h, Res.err_bind]
  · intro h
    simp only [generateElGamalKeyPair, h, Res.crash_bind]

theorem writeProto_none (m : List Field) (name : Bytes) (w : World) (h : (enc m).length < 2 ^ 31) :
    (writeProtoToFile .none m name w).1 = .ok () := by
  obtain ⟨o', ho⟩ := writeFile_none name [KeyUtil.toString m] w (by
    intro r hr
    simp only [List.mem_singleton] at hr
    subst hr; exact h)
  simp only [writeProtoToFile, ho]

/-- A curve id this toy library knows. -/
def toyCreate (c : Int) : Res (EcGroup (ZMod 11)) := if c = 415 then .ok toyEc else .err .invalidArgument

theorem toyShort : ShortPoints toyEc := by
  intro P bs h
  simp only [toyEc] at h
  split at h
  · cases h
  · cases h; norm_num

/-- The hypotheses of the two theorems above hold for the toy curve with no failing call. -/
example : ∃ w1 w2,
    generateEcKey toyCreate .none 5 415 (str "k") ⟨fun _ => none, 0⟩ = (.ok (), w1) ∧
    generateElGamalKeyPair toyCreate .none 5 415 (str "pub") (str "prv") ⟨fun _ => none, 0⟩ = (.ok (), w2) ∧
    (∀ E, toyCreate 415 = .ok E → 1 < E.order ∧ E.order ≤ 256 ^ 1) ∧
    (∀ E, toyCreate 415 = .ok E → E.Lawful ∧ ShortPoints E ∧ E.order ≤ 256 ^ 1) := by
  have hc : toyCreate 415 = .ok toyEc := rfl
  refine ⟨_, _, eq_pair (by decide +kernel), eq_pair (by decide +kernel), ?_, ?_⟩
  · intro E h
    rw [hc, Res.ok.injEq] at h
    subst h
    decide
  · intro E h
    rw [hc, Res.ok.injEq] at h
    subst h
    exact ⟨toyEc_lawful, toyShort, by decide⟩

/-- With the same name for both files the public key is lost without an error: the run succeeds
and reading the file as a public key fails. -/
theorem C64_same_name_overwrites :
    ∃ w' m, generateElGamalKeyPair toyCreate .none 5 415 (str "k") (str "k") ⟨fun _ => none, 0⟩ =
        (.ok (), w') ∧
      readProtoFromFile 1 (fun _ => []) w'.files (str "k") = .ok m ∧
      deserializePublicKey toyEc m = .err .invalidArgument := by
  refine ⟨_, elGamalSecretKeyProto [6], eq_pair (by decide +kernel), by decide +kernel, by rfl⟩

/-! ### Joint keys -/

theorem readShares_ok (junk : Nat) (junkMsg : Bytes → List Field) (E : EcGroup G)
    (files : Bytes → Option Bytes) (pk : Bytes → ElGamal.PublicKey G) : ∀ names : List Bytes,
    (∀ n ∈ names, ∃ m, readProtoFromFile junk junkMsg files n = .ok m ∧
      deserializePublicKey E m = .ok (pk n)) →
    readShares junk junkMsg E files names = .ok (names.map pk)
  | [], _ => rfl
  | n :: ns, h => by
    obtain ⟨m, h1, h2⟩ := h n (by simp)
    rw [readShares, h1]
    simp only [Res.ok_bind, h2, readShares_ok junk junkMsg E files pk ns
      (fun x hx => h x (by simp [hx])), Res.pure_eq, List.map_cons]

theorem sharesLoop_sum (g : G) : ∀ (l : List (ElGamal.PublicKey G)) (y : G), (∀ s ∈ l, s.g = g) →
    ElGamal.sharesLoop g l y = .ok (y + (l.map (·.y)).sum)
  | [], y, _ => by simp [ElGamal.sharesLoop]
  | s :: l, y, h => by
    rw [ElGamal.sharesLoop, if_pos (h s (by simp)).symm,
      sharesLoop_sum g l _ (fun x hx => h x (by simp [hx]))]
    simp [add_assoc]

/-- **C64**, joint keys.  If every share file can be read as a public key and all of them have
the same generator `g`, then `ComputeJointElGamalPublicKey` fails with INTERNAL and writes nothing
exactly when the sum of the `y`s is the point at infinity; and if it succeeds, the file written is
read back as the key with generator `g` and the sum of the `y`s.  No other file changes.  With no
failing system call it succeeds whenever the sum is not infinity. -/
theorem C64_joint_key (create : Int → Res (EcGroup G)) (Ω : Faults) (curveId : Int)
    (shares : List Bytes) (hs : shares ≠ []) (joint : Bytes) (w : World) (junk : Nat)
    (junkMsg : Bytes → List Field) (E : EcGroup G) (hcr : create curveId = .ok E) (hE : E.Lawful)
    (hshort : ShortPoints E) (pk : Bytes → ElGamal.PublicKey G) (g : G) (hg : g ≠ 0)
    (hpk : ∀ n ∈ shares, (pk n).g = g ∧ ∃ m, readProtoFromFile junk junkMsg w.files n = .ok m ∧
      deserializePublicKey E m = .ok (pk n)) :
    ((shares.map fun n => (pk n).y).sum = 0 →
      computeJointElGamalPublicKey create junk junkMsg Ω curveId shares joint w =
        (.err .internal, w)) ∧
    (∀ w', computeJointElGamalPublicKey create junk junkMsg Ω curveId shares joint w = (.ok (), w') →
      ∃ m, readProtoFromFile junk junkMsg w'.files joint = .ok m ∧
        deserializePublicKey E m = .ok ⟨g, (shares.map fun n => (pk n).y).sum⟩ ∧
        ∀ n, n ≠ joint → w'.files n = w.files n) ∧
    ((shares.map fun n => (pk n).y).sum ≠ 0 →
      (∀ P bs, E.point2oct P = some bs → bs.length < 2 ^ 29) →
      (computeJointElGamalPublicKey create junk junkMsg .none curveId shares joint w).1 = .ok ()) := by
  have hread := readShares_ok junk junkMsg E w.files pk shares (fun n hn => (hpk n hn).2)
  have hjoin : ElGamal.publicKeyFromShares (shares.map pk) =
      .ok ⟨g, (shares.map fun n => (pk n).y).sum⟩ := by
    cases shares with
    | nil => exact absurd rfl hs
    | cons n ns =>
      rw [List.map_cons, ElGamal.publicKeyFromShares, (hpk n (by simp)).1, sharesLoop_sum g _ _ (by
        intro s hs'
        obtain ⟨n', hn', rfl⟩ := List.mem_map.1 hs'
        exact (hpk n' (by simp [hn'])).1)]
      simp [List.map_map, Function.comp_def]
  have hred : ∀ Ω, computeJointElGamalPublicKey create junk junkMsg Ω curveId shares joint w =
      match serializePublicKey E ⟨g, (shares.map fun n => (pk n).y).sum⟩ with
      | .ok m => writeProtoToFile Ω m joint w
      | .err c => (.err c, w)
      | .crash => (.crash, w)
      | .ub => (.ub, w) := by
    intro Ω
    rw [computeJointElGamalPublicKey, if_neg hs]
    simp only [hcr, hread, hjoin, Res.ok_bind]
    cases serializePublicKey E ⟨g, (shares.map fun n => (pk n).y).sum⟩ <;> rfl
  obtain ⟨bg, hbg, hdg⟩ := hE.toBytes_ne hg
  refine ⟨?_, ?_, ?_⟩
  · intro h0
    rw [hred, (C64_elgamal_protos E hE).2.1 _ (by simp [h0])]
  · intro w' h
    rw [hred] at h
    by_cases h0 : (shares.map fun n => (pk n).y).sum = 0
    · rw [(C64_elgamal_protos E hE).2.1 _ (by simp [h0])] at h
      simp at h
    · obtain ⟨b, hb, hd⟩ := hE.toBytes_ne h0
      have hser : serializePublicKey E ⟨g, (shares.map fun n => (pk n).y).sum⟩ =
          .ok (elGamalPublicKeyProto bg b) := by simp [serializePublicKey, hbg, hb]
      rw [hser] at h
      have hpp : Parsable (elGamalPublicKeyProto bg b) := by
        intro f hf
        rw [elGamalPublicKeyProto, List.mem_append] at hf
        rcases hf with hf | hf
        · exact parsable_bytesField (by norm_num) (by norm_num) (hshort.toBytes hbg) f hf
        · exact parsable_bytesField (by norm_num) (by norm_num) (hshort.toBytes hb) f hf
      obtain ⟨h1, h2⟩ := C77_proto_file_round_trip Ω _ joint w w' junk junkMsg hpp h
      refine ⟨_, h1, ?_, h2⟩
      simp only [deserializePublicKey, getBytes_pk2, getBytes_pk3, hdg, hd, Res.ok_bind, Res.pure_eq]
  · intro h0 hlen
    obtain ⟨b, hb, hd⟩ := hE.toBytes_ne h0
    have hser : serializePublicKey E ⟨g, (shares.map fun n => (pk n).y).sum⟩ =
        .ok (elGamalPublicKeyProto bg b) := by simp [serializePublicKey, hbg, hb]
    rw [hred, hser]
    have hl : ∀ (P : G) (bs : Bytes), E.toBytesCompressed P = .ok bs → bs.length < 2 ^ 29 := by
      intro P bs h
      unfold EcGroup.toBytesCompressed at h
      split at h
      · rename_i bs' h'
        cases h; exact hlen P _ h'
      · cases h
    refine writeProto_none _ _ _ ?_
    have h1 := hl g bg hbg
    have h2 := hl _ b hb
    have hv : ∀ n, (varint n).length ≤ 10 := fun n => by
      unfold varint
      generalize 10 = f
      induction f generalizing n with
      | zero => simp [Rec.varintBytes]
      | succ f ih =>
        rw [Rec.varintBytes]
        split
        · simp
        · have := ih (n / 128)
          simp; omega
    have hfl : ∀ k (x : Bytes), (enc (bytesField k x)).length ≤ 20 + x.length := by
      intro k x
      unfold bytesField
      split
      · simp [enc]
      · have := hv (k * 8 + 2)
        have := hv x.length
        simp only [enc, List.flatMap_cons, List.flatMap_nil, Field.enc, List.append_nil,
          List.length_append]
        omega
    have h3 := hfl 2 bg
    have h4 := hfl 3 b
    rw [elGamalPublicKeyProto, enc, List.flatMap_append, List.length_append]
    rw [enc] at h3 h4
    omega

/-- **C64**: no share files at all are refused with INVALID_ARGUMENT, whatever the curve. -/
theorem C64_joint_empty (create : Int → Res (EcGroup G)) (Ω : Faults) (curveId : Int) (joint : Bytes)
    (w : World) (junk : Nat) (junkMsg : Bytes → List Field) :
    computeJointElGamalPublicKey create junk junkMsg Ω curveId [] joint w =
      (.err .invalidArgument, w) := rfl

/-- A file system holding two shares of the toy group. -/
def toyShares (g2 : Byte) : Bytes → Option Bytes := fun n =>
  if n = str "a" then some (fileBytes [enc (elGamalPublicKeyProto [1] [4])])
  else if n = str "b" then some (fileBytes [enc (elGamalPublicKeyProto [g2] [5])])
  else none

/-- The hypotheses of `C64_joint_key` hold for it, and the joint key is written. -/
example : ∃ w' m, computeJointElGamalPublicKey toyCreate 1 (fun _ => []) .none 415 [str "a", str "b"]
      (str "j") ⟨toyShares 1, 0⟩ = (.ok (), w') ∧
    readProtoFromFile 1 (fun _ => []) w'.files (str "j") = .ok m ∧
    deserializePublicKey toyEc m = .ok ⟨1, 9⟩ ∧
    ∀ n ∈ [str "a", str "b"], (if n = str "a" then (⟨1, 4⟩ : ElGamal.PublicKey (ZMod 11)) else ⟨1, 5⟩).g = 1 ∧
      ∃ m, readProtoFromFile 1 (fun _ => []) (toyShares 1) n = .ok m ∧
        deserializePublicKey toyEc m = .ok (if n = str "a" then ⟨1, 4⟩ else ⟨1, 5⟩) := by
  have key : ∀ n ∈ [str "a", str "b"],
      (if n = str "a" then (⟨1, 4⟩ : ElGamal.PublicKey (ZMod 11)) else ⟨1, 5⟩).g = 1 ∧
      ∃ m, readProtoFromFile 1 (fun _ => []) (toyShares 1) n = .ok m ∧
        deserializePublicKey toyEc m = .ok (if n = str "a" then ⟨1, 4⟩ else ⟨1, 5⟩) := by
    intro n hn
    simp only [List.mem_cons, List.not_mem_nil, or_false] at hn
    rcases hn with rfl | rfl
    · exact ⟨rfl, elGamalPublicKeyProto [1] [4], by decide +kernel, by rfl⟩
    · exact ⟨rfl, elGamalPublicKeyProto [1] [5], by decide +kernel, by rfl⟩
  have h := C64_joint_key toyCreate .none 415 [str "a", str "b"] (by simp) (str "j") ⟨toyShares 1, 0⟩ 1
    (fun _ => []) toyEc rfl toyEc_lawful toyShort _ 1 (by decide) key
  have hok := h.2.2 (by decide) (by
    intro P bs h
    simp only [toyEc] at h
    split at h
    · cases h
    · cases h; norm_num)
  obtain ⟨m, h1, h2, -⟩ := h.2.1 _ (eq_pair hok)
  exact ⟨_, m, eq_pair hok, h1, h2, key⟩

/-- A share made with another generator does not give an error status: the process aborts. -/
theorem C64_joint_generator_mismatch_aborts :
    (computeJointElGamalPublicKey toyCreate 1 (fun _ => []) .none 415 [str "a", str "b"]
      (str "j") ⟨toyShares 2, 0⟩).1 = .crash := by
  decide +kernel

/-- An empty record, or one that cannot be parsed, passes as an ElGamal private key: the key is
whatever protobuf left behind, in the first case 0. -/
theorem C64_empty_private_key_accepted (junk : Nat) (junkMsg : Bytes → List Field)
    (files : Bytes → Option Bytes) (name : Bytes) (hf : files name = fileOf [[]]) :
    ∃ m, readProtoFromFile junk junkMsg files name = .ok m ∧
      deserializePrivateKey m = .ok ⟨0⟩ := by
  rw [fileOf_eq (by simp)] at hf
  refine ⟨[], ?_, rfl⟩
  rw [readProtoFromFile, openRead, hf]
  simp only [Res.ok_bind, readRecord_file junk (r := []) (by norm_num), Res.pure_eq]
  rfl

/-! ### ec_point_util.cc -/

/-- **C78**.  `IsCurvePoint` accepts exactly the strings that decode to a point other than
infinity; the points `GetRandomCurvePoint` returns, and the strings `HashToCurve` returns when the
curve's hash does not return infinity, are accepted; `HashToCurve` refuses every hash type but
SHA256 and SHA512 with INVALID_ARGUMENT. -/
theorem C78_point_util (E : EcGroup G) (hE : E.Lawful) :
    (∀ bs, isCurvePoint E bs = true ↔ ∃ P, P ≠ 0 ∧ E.oct2point bs = some P) ∧
    (∀ draw, ∃ (bs : Bytes) (r : Int), getRandomCurvePoint E draw = .ok bs ∧ 1 ≤ r ∧ r < E.order ∧
      E.oct2point bs = some (r • E.gen) ∧ isCurvePoint E bs = true) ∧
    (∀ a P, E.hashSha256 a = .ok P → P ≠ 0 → ∃ bs, hashToCurve E a .sha256 = .ok bs ∧
      E.oct2point bs = some P ∧ isCurvePoint E bs = true) ∧
    (∀ a P, E.hashSha512 a = .ok P → P ≠ 0 → ∃ bs, hashToCurve E a .sha512 = .ok bs ∧
      E.oct2point bs = some P ∧ isCurvePoint E bs = true) ∧
    (∀ a t, t ≠ .sha256 → t ≠ .sha512 → hashToCurve E a t = .err .invalidArgument) := by
  have hcp : ∀ bs, isCurvePoint E bs = true ↔ ∃ P, P ≠ 0 ∧ E.oct2point bs = some P := by
    intro bs
    unfold isCurvePoint EcGroup.createECPoint
    cases h : E.oct2point bs with
    | none => simp
    | some P => by_cases hP : P = 0 <;> simp [hP]
  refine ⟨hcp, ?_, ?_, ?_, ?_⟩
  · intro draw
    obtain ⟨r, hr, h1, h2⟩ := hE.generatePrivateKey_spec draw
    have hne := hE.zsmul_ne (hE.not_dvd h1 h2) hE.gen_ne
    obtain ⟨bs, h3, h4⟩ := hE.decode_encode _ hne
    refine ⟨bs, r, ?_, h1, h2, h4, (hcp bs).2 ⟨_, hne, h4⟩⟩
    rw [EcGroup.generatePrivateKey] at hr
    simp [getRandomCurvePoint, EcGroup.getRandomGenerator, hr, EcGroup.toBytesCompressed, h3]
  · intro a P ha hP
    obtain ⟨bs, h3, h4⟩ := hE.decode_encode _ hP
    exact ⟨bs, by simp [hashToCurve, ha, EcGroup.toBytesCompressed, h3], h4, (hcp bs).2 ⟨_, hP, h4⟩⟩
  · intro a P ha hP
    obtain ⟨bs, h3, h4⟩ := hE.decode_encode _ hP
    exact ⟨bs, by simp [hashToCurve, ha, EcGroup.toBytesCompressed, h3], h4, (hcp bs).2 ⟨_, hP, h4⟩⟩
  · intro a t h1 h2
    simp [hashToCurve, h1, h2]

example : toyEc.Lawful ∧ isCurvePoint toyEc [3] = true ∧ isCurvePoint toyEc [11] = false ∧
    ∃ P, toyEc.hashSha256 (str "a") = .ok P ∧ P ≠ 0 :=
  ⟨toyEc_lawful, by decide, by decide, 8, by decide, by decide⟩

end PJC.KeyUtil
