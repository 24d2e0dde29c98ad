import Mathlib.Data.ZMod.Basic
import Mathlib.Tactic.NormNum.Prime
import Verif.Lemmas.Ec
/-
C18 - C26: the commutative cipher and ElGamal, over any group that satisfies
`EcGroup.Lawful` (prime order, encoding defined on and faithful to the points other
than infinity).
-/
set_option linter.unusedSectionVars false
namespace PJC

variable {G : Type} [AddCommGroup G] [DecidableEq G]

/-! ### A concrete group, for the examples -/

/-- Z/11 with one-byte encodings, hashing a string to `value mod 10 + 1`. -/
def toyEc : EcGroup (ZMod 11) where
  order := 11
  gen := 1
  point2oct P := if P = 0 then none else some [Fin.ofNat 256 P.val]
  oct2point bs :=
    match bs with
    | [b] => if 0 < b.val ∧ b.val < 11 then some (b.val : ZMod 11) else none
    | _ => none
  hashSha256 a := .ok ((((BN.ofBytes a) % 10 + 1 : Int)) : ZMod 11)
  hashSha384 a := .ok ((((BN.ofBytes a) % 10 + 1 : Int)) : ZMod 11)
  hashSha512 a := .ok ((((BN.ofBytes a) % 10 + 1 : Int)) : ZMod 11)
  hashSswuRo a _ := .ok ((((BN.ofBytes a) % 10 + 1 : Int)) : ZMod 11)

theorem toyEc_lawful : toyEc.Lawful where
  prime := by show Nat.Prime 11; norm_num
  order_smul P := by show (11 : Nat) • P = 0; revert P; decide
  gen_ne := by decide
  encode_zero := by decide
  decode_encode P hP := by
    refine ⟨[Fin.ofNat 256 P.val], by simp [toyEc, hP], ?_⟩
    revert hP; revert P; decide

/-! ### Cipher objects -/

/-- The ways to obtain a cipher on curve `E` with hash type `t`: a fresh key, or an
imported one. -/
inductive CipherOf (E : EcGroup G) (t : HashType) (c : EcCipher G) : Prop
  | newKey (w : Nat) (h : EcCipher.createWithNewKey (.ok E) t w = .ok c)
  | fromKey (key : Bytes) (h : EcCipher.createFromKey (.ok E) key t = .ok c)

theorem CipherOf.good {E : EcGroup G} (hE : E.Lawful) {t : HashType} {c : EcCipher G}
    (h : CipherOf E t c) : EcCipher.Good E t c := by
  cases h with
  | newKey w h =>
    obtain ⟨k, hk, h1, h2⟩ := hE.generatePrivateKey_spec w
    simp only [EcCipher.createWithNewKey, Res.ok_bind, hk] at h
    split at h
    · cases h
    · obtain ⟨c', hc', hg, -⟩ := EcCipher.make_good (t := t) hE h1 h2
      rw [hc'] at h
      cases h; exact hg
  | fromKey key h =>
    simp only [EcCipher.createFromKey, Res.ok_bind, EcGroup.checkPrivateKey] at h
    split at h
    · cases h
    · split at h
      · cases h
      · rename_i hr
        obtain ⟨c', hc', hg, -⟩ := EcCipher.make_good (k := BN.ofBytes key) (t := t) hE
          (by omega) (by omega)
        rw [Res.ok_bind, hc'] at h
        cases h; exact hg

/-- Ciphers with any key of `[1, order)` exist. -/
theorem cipherOf_exists {E : EcGroup G} (hE : E.Lawful) {t : HashType} (ht : t ≠ .other)
    {k : Nat} (h1 : 1 ≤ k) (h2 : k < E.order) : ∃ c, CipherOf E t c ∧ c.privateKey = k := by
  obtain ⟨c, hc, hg, hk⟩ := EcCipher.make_good (k := (k : Int)) (t := t) hE (by omega) (by omega)
  refine ⟨c, .fromKey (BN.natToBytes k) ?_, hk⟩
  have hb : BN.ofBytes (BN.natToBytes k) = (k : Int) := BN.ofBytes_natToBytes k
  have hv : (!EcCipher.validateHashType t) = false := by simp [EcCipher.validateHashType, ht]
  simp only [EcCipher.createFromKey, Res.ok_bind, hv, hb, EcGroup.checkPrivateKey]
  rw [if_neg (by simp), if_neg (by omega)]
  simpa using hc

/-- **C18**.  Encrypting with `K2` and re-encrypting with `K1` gives the same outcome
as the other way round, as byte strings, for every plaintext. -/
theorem C18_commutes (E : EcGroup G) (hE : E.Lawful) (t : HashType) (K1 K2 : EcCipher G)
    (h1 : CipherOf E t K1) (h2 : CipherOf E t K2) (a : Bytes) :
    (K2.encrypt a >>= K1.reEncrypt) = (K1.encrypt a >>= K2.reEncrypt) := by
  have g1 := h1.good hE
  have g2 := h2.good hE
  have hh := g1.hash_eq g2 a
  cases hP : K1.hashToTheCurveInternal a with
  | err c => simp [EcCipher.encrypt, hP, ← hh]
  | crash => simp [EcCipher.encrypt, hP, ← hh]
  | ub => simp [EcCipher.encrypt, hP, ← hh]
  | ok P =>
    rw [g1.encrypt_eq hP, g2.encrypt_eq (hh ▸ hP)]
    by_cases hz : P = 0
    · subst hz; simp [hE.toBytes_zero]
    · obtain ⟨b1, hb1, hd1⟩ := hE.toBytes_ne (g1.smul_ne hE hz)
      obtain ⟨b2, hb2, hd2⟩ := hE.toBytes_ne (g2.smul_ne hE hz)
      rw [hb1, hb2, Res.ok_bind, Res.ok_bind, g1.reEncrypt_eq hd2, g2.reEncrypt_eq hd1,
        zsmul_comm]

/-- **C18**, the outcome is a value: whenever the plaintext hashes to a point other
than infinity, both orders succeed. -/
theorem C18_succeeds (E : EcGroup G) (hE : E.Lawful) (t : HashType) (K1 K2 : EcCipher G)
    (h1 : CipherOf E t K1) (h2 : CipherOf E t K2) (a : Bytes)
    (ha : (K1.hashToTheCurve a).isOk) :
    ∃ ct, (K2.encrypt a >>= K1.reEncrypt) = .ok ct := by
  have g1 := h1.good hE
  have g2 := h2.good hE
  obtain ⟨b, hb⟩ := ha
  simp only [EcCipher.hashToTheCurve, Res.bind_eq_ok] at hb
  obtain ⟨P, hP, hb⟩ := hb
  rw [g1.group] at hb
  have hz := (hE.toBytes_ok hb).1
  rw [g2.encrypt_eq (g1.hash_eq g2 a ▸ hP)]
  obtain ⟨b2, hb2, hd2⟩ := hE.toBytes_ne (g2.smul_ne hE hz)
  rw [hb2, Res.ok_bind, g1.reEncrypt_eq hd2]
  obtain ⟨b3, hb3, -⟩ := hE.toBytes_ne (g1.smul_ne hE (g2.smul_ne hE hz))
  exact ⟨b3, hb3⟩

/-- **C19**.  Decrypting a re-encryption returns the point's encoding, for every input
that decodes to a point; in particular it returns the input when that is the
(compressed) encoding of a point. -/
theorem C19_decrypt_reencrypt (E : EcGroup G) (hE : E.Lawful) (t : HashType) (K : EcCipher G)
    (hK : CipherOf E t K) (ct : Bytes) (P : G) (hct : E.createECPoint ct = .ok P) :
    (K.reEncrypt ct >>= K.decrypt) = E.toBytesCompressed P ∧
      (E.toBytesCompressed P = .ok ct → (K.reEncrypt ct >>= K.decrypt) = .ok ct) := by
  have g := hK.good hE
  have hP : P ≠ 0 := by
    rintro rfl
    simp only [EcGroup.createECPoint] at hct
    split at hct
    · cases hct
    · split at hct
      · cases hct
      · cases hct; contradiction
  have key : (K.reEncrypt ct >>= K.decrypt) = E.toBytesCompressed P := by
    rw [g.reEncrypt_eq hct]
    obtain ⟨b, hb, hd⟩ := hE.toBytes_ne (g.smul_ne hE hP)
    rw [hb, Res.ok_bind, g.decrypt_eq hd, g.inv_smul hE]
  exact ⟨key, fun h => key.trans h⟩

/-- **C19**.  Decrypting an encryption gives the hash of the string. -/
theorem C19_decrypt_encrypt (E : EcGroup G) (hE : E.Lawful) (t : HashType) (K : EcCipher G)
    (hK : CipherOf E t K) (a : Bytes) :
    (K.encrypt a >>= K.decrypt) = K.hashToTheCurve a := by
  have g := hK.good hE
  cases hP : K.hashToTheCurveInternal a with
  | err c => simp [EcCipher.encrypt, EcCipher.hashToTheCurve, hP]
  | crash => simp [EcCipher.encrypt, EcCipher.hashToTheCurve, hP]
  | ub => simp [EcCipher.encrypt, EcCipher.hashToTheCurve, hP]
  | ok P =>
    rw [g.encrypt_eq hP]
    simp only [EcCipher.hashToTheCurve, hP, Res.ok_bind, g.group]
    by_cases hz : P = 0
    · subst hz; simp [hE.toBytes_zero]
    · obtain ⟨b, hb, hd⟩ := hE.toBytes_ne (g.smul_ne hE hz)
      rw [hb, Res.ok_bind, g.decrypt_eq hd, g.inv_smul hE]

/-- **C19**.  Decrypting a doubly encrypted value with one key leaves it encrypted
under the other. -/
theorem C19_decrypt_one_layer (E : EcGroup G) (hE : E.Lawful) (t : HashType)
    (K1 K2 : EcCipher G) (h1 : CipherOf E t K1) (h2 : CipherOf E t K2) (a : Bytes) :
    (K2.encrypt a >>= K1.reEncrypt >>= K1.decrypt) = K2.encrypt a ∧
      (K2.encrypt a >>= K1.reEncrypt >>= K2.decrypt) = K1.encrypt a := by
  have side : ∀ A B : EcCipher G, CipherOf E t A → CipherOf E t B →
      (B.encrypt a >>= A.reEncrypt >>= A.decrypt) = B.encrypt a := by
    intro A B hA hB
    have gB := hB.good hE
    cases hx : B.encrypt a with
    | err c => rfl
    | crash => rfl
    | ub => rfl
    | ok x =>
      have hx' := hx
      simp only [EcCipher.encrypt, EcCipher.encryptPoint, Res.bind_eq_ok, Res.ok.injEq] at hx'
      obtain ⟨P, hP, Q, rfl, hQ⟩ := hx'
      rw [gB.group] at hQ
      have hd := (hE.toBytes_ok hQ).2
      rw [Res.bind_assoc, Res.ok_bind]
      exact (C19_decrypt_reencrypt E hE t A hA x _ hd).2 hQ
  refine ⟨side K1 K2 h1 h2, ?_⟩
  rw [C18_commutes E hE t K1 K2 h1 h2 a]
  exact side K2 K1 h2 h1

/-- **C20**.  Two encryptions under one key are equal exactly when the strings hash to
the same point. -/
theorem C20_encrypt_injective (E : EcGroup G) (hE : E.Lawful) (t : HashType) (K : EcCipher G)
    (hK : CipherOf E t K) (a b x y : Bytes) (hx : K.encrypt a = .ok x) (hy : K.encrypt b = .ok y) :
    x = y ↔ K.hashToTheCurve a = K.hashToTheCurve b := by
  have g := hK.good hE
  have hx' := hx
  have hy' := hy
  simp only [EcCipher.encrypt, EcCipher.encryptPoint, Res.bind_eq_ok, Res.ok.injEq,
    g.group] at hx' hy'
  obtain ⟨P, hP, _, rfl, hPx⟩ := hx'
  obtain ⟨Q, hQ, _, rfl, hQy⟩ := hy'
  have hP0 : P ≠ 0 := by rintro rfl; simp [hE.toBytes_zero] at hPx
  have hQ0 : Q ≠ 0 := by rintro rfl; simp [hE.toBytes_zero] at hQy
  simp only [EcCipher.hashToTheCurve, hP, hQ, Res.ok_bind, g.group]
  constructor
  · rintro rfl
    rw [g.smul_inj hE (hE.toBytes_inj hPx hQy)]
  · intro h
    obtain ⟨bs, hbs, -⟩ := hE.toBytes_ne hP0
    have : P = Q := hE.toBytes_inj hbs (h ▸ hbs)
    subst this
    rw [hPx] at hQy
    cases hQy; rfl

/-- **C20**.  Two double encryptions, made in the two different orders (as the two
parties of the protocol do), are equal exactly when the strings hash to the same
point. -/
theorem C20_double_encryption (E : EcGroup G) (hE : E.Lawful) (t : HashType)
    (K1 K2 : EcCipher G) (h1 : CipherOf E t K1) (h2 : CipherOf E t K2) (a b x y : Bytes)
    (hx : (K1.encrypt a >>= K2.reEncrypt) = .ok x)
    (hy : (K2.encrypt b >>= K1.reEncrypt) = .ok y) :
    x = y ↔ K1.hashToTheCurve a = K1.hashToTheCurve b := by
  have g1 := h1.good hE
  have g2 := h2.good hE
  rw [C18_commutes E hE t K1 K2 h1 h2 b] at hy
  obtain ⟨x1, hx1, hx2⟩ := Res.bind_eq_ok.1 hx
  obtain ⟨y1, hy1, hy2⟩ := Res.bind_eq_ok.1 hy
  rw [← C20_encrypt_injective E hE t K1 h1 a b x1 y1 hx1 hy1]
  constructor
  · rintro rfl
    simp only [EcCipher.encrypt, EcCipher.encryptPoint, Res.bind_eq_ok, Res.ok.injEq,
      g1.group] at hx1 hy1
    obtain ⟨P, -, _, rfl, hPx⟩ := hx1
    obtain ⟨Q, -, _, rfl, hQy⟩ := hy1
    rw [g2.reEncrypt_eq (hE.toBytes_ok hPx).2] at hx2
    rw [g2.reEncrypt_eq (hE.toBytes_ok hQy).2] at hy2
    have := g2.smul_inj hE (hE.toBytes_inj hx2 hy2)
    rw [this, hQy] at hPx
    cases hPx; rfl
  · rintro rfl
    rw [hx2] at hy2
    cases hy2; rfl

/-- The hypotheses of C18-C20 hold for two different keys and a plaintext of the toy
group. -/
example : ∃ K1 K2 : EcCipher (ZMod 11), CipherOf toyEc .sha256 K1 ∧ CipherOf toyEc .sha256 K2 ∧
    K1.privateKey = 3 ∧ K2.privateKey = 7 ∧ (K1.hashToTheCurve (str "a")).isOk := by
  exact ⟨⟨toyEc, 3, 4, .sha256⟩, ⟨toyEc, 7, 8, .sha256⟩, .fromKey [3] rfl, .fromKey [7] rfl,
    rfl, rfl, ⟨[8], by decide⟩⟩

/-- **C21**.  Fresh and imported keys lie in `[1, order)`; key bytes outside that range
are refused with InvalidArgument, bytes inside it are accepted (and are the key). -/
theorem C21_new_and_imported_keys (E : EcGroup G) (hE : E.Lawful) (t : HashType) :
    (∀ w c, EcCipher.createWithNewKey (.ok E) t w = .ok c →
      1 ≤ c.privateKey ∧ c.privateKey < E.order) ∧
    (∀ key c, EcCipher.createFromKey (.ok E) key t = .ok c →
      1 ≤ c.privateKey ∧ c.privateKey < E.order ∧ c.privateKey = BN.ofBytes key) ∧
    (∀ key, t ≠ .other →
      ((EcCipher.createFromKey (.ok E) key t).isOk ↔
        1 ≤ BN.ofBytes key ∧ BN.ofBytes key < E.order)) ∧
    (∀ key, ¬ (1 ≤ BN.ofBytes key ∧ BN.ofBytes key < E.order) →
      EcCipher.createFromKey (.ok E) key t = .err .invalidArgument) := by
  refine ⟨fun w c h => ?_, fun key c h => ?_, fun key ht => ?_, fun key h => ?_⟩
  · have g := (CipherOf.newKey w h).good hE
    exact ⟨g.key_pos, g.key_lt⟩
  · have g := (CipherOf.fromKey key h).good hE
    refine ⟨g.key_pos, g.key_lt, ?_⟩
    simp only [EcCipher.createFromKey, Res.ok_bind, EcGroup.checkPrivateKey] at h
    split at h
    · cases h
    · split at h
      · cases h
      · simp only [Res.ok_bind, EcCipher.make, Res.bind_eq_ok, Res.pure_eq,
          Res.ok.injEq] at h
        obtain ⟨_, _, rfl⟩ := h
        rfl
  · constructor
    · rintro ⟨c, h⟩
      simp only [EcCipher.createFromKey, Res.ok_bind, EcGroup.checkPrivateKey] at h
      split at h
      · cases h
      · split at h
        · cases h
        · omega
    · rintro ⟨h1, h2⟩
      obtain ⟨c, hc, -⟩ := EcCipher.make_good (t := t) hE h1 h2
      refine ⟨c, ?_⟩
      have hv : (!EcCipher.validateHashType t) = false := by simp [EcCipher.validateHashType, ht]
      simp only [EcCipher.createFromKey, Res.ok_bind, EcGroup.checkPrivateKey, hv]
      rw [if_neg (by simp), if_neg (by omega), Res.ok_bind, hc]
  · simp only [EcCipher.createFromKey, Res.ok_bind, EcGroup.checkPrivateKey]
    split
    · rfl
    · rw [if_pos (by omega)]; rfl

/-- The hash that belongs to a hash type: SHA-256, SHA-384, SHA-512 or SSWU, the latter with the
domain separation tag "ECCommutativeCipher". -/
def hashOf (E : EcGroup G) : HashType → Bytes → Res G
  | .sha256, a => E.hashSha256 a
  | .sha384, a => E.hashSha384 a
  | .sha512, a => E.hashSha512 a
  | .sswuRo, a => E.hashSswuRo a (str "ECCommutativeCipher")
  | .other, _ => .err .invalidArgument

/-- **C20**, the values: what `HashToTheCurve` and `Encrypt` return is the encoding of the hash that
belongs to the hash type, and of the key times that hash. -/
theorem C20_values (E : EcGroup G) (hE : E.Lawful) (t : HashType) (K : EcCipher G)
    (hK : CipherOf E t K) (a : Bytes) :
    K.hashToTheCurve a = (hashOf E t a >>= fun P => E.toBytesCompressed P) ∧
      K.encrypt a = (hashOf E t a >>= fun P => E.toBytesCompressed (K.privateKey • P)) := by
  have g := hK.good hE
  unfold EcCipher.hashToTheCurve EcCipher.encrypt EcCipher.hashToTheCurveInternal
    EcCipher.encryptPoint hashOf
  rw [g.hashType, g.group]
  cases t <;> exact ⟨rfl, rfl⟩

/-- With key 3 the hash 2 of the identifier 1 becomes 6. -/
example : ∃ K, CipherOf toyEc .sha384 K ∧ K.encrypt [1] = .ok [6] := by
  obtain ⟨K, hK, hk⟩ := cipherOf_exists toyEc_lawful (t := .sha384) (by decide) (k := 3) (by decide)
    (by decide)
  refine ⟨K, hK, ?_⟩
  rw [(C20_values toyEc toyEc_lawful _ K hK [1]).2, hk]
  decide

/-- The full statement of C21 for keys derived from a seed: whatever HMAC returns, a
cipher created from a seed has its key in `[1, order)`. -/
def C21SeedStatement (E : EcGroup G) (t : HashType) : Prop :=
  ∀ (H : Hashes) (fuel : Nat) (seed tag : Bytes) (c : EcCipher G),
    EcCipher.createWithKeyFromSeed H fuel (.ok E) seed tag t = some (.ok c) →
    1 ≤ c.privateKey ∧ c.privateKey < E.order

/-- **C21 is false for `CreateWithKeyFromSeed`**: the PRF ranges over `[0, order)` and
zero is not excluded, so for an HMAC value ending in zeros the cipher gets key 0 (under
which every encryption fails). -/
theorem C21_seed_key_fails (E : EcGroup G) (hE : E.Lawful)
    (hbits : BN.bitLength E.order ≤ 512) (t : HashType) (ht : t ≠ .other) :
    ¬ C21SeedStatement E t := by
  intro h
  have h2 := hE.prime.two_le
  have hmod : EcCipher.invertPrivateScalar 0 E.order =
      .ok (0 ^ ((E.order : Int) - 2).toNat % E.order) := by
    simp only [EcCipher.invertPrivateScalar, BN.modExp]
    rw [if_neg (by omega), if_neg (by omega)]
  have := h ⟨fun _ => [], fun _ => [], fun _ => [], fun _ _ => []⟩ 1 (List.replicate 16 0) []
    { group := E, privateKey := 0, hashType := t,
      privateKeyInverse := 0 ^ ((E.order : Int) - 2).toNat % E.order } (by
    simp only [EcCipher.createWithKeyFromSeed, Ctx.prf]
    rw [if_neg (by simp), if_neg (by simp [EcCipher.validateHashType, ht])]
    have hz : BN.getLastNBits (BN.ofBytes []) (BN.bitLength E.order) = 0 := by
      simp [BN.getLastNBits, BN.ofBytes]
    simp only [hz]
    rw [if_neg (by simp), if_neg (by omega), if_pos (by omega)]
    simp [EcCipher.make, hmod])
  simp at this

/-- **C21, partial, for seeds**: seeds under 16 bytes and unknown hash types are refused; otherwise the key is
the value of the PRF at seed and tag (see C31), in `[0, order)`, and it is usable unless it is 0. -/
theorem C21_seed_key_partial (E : EcGroup G) (hE : E.Lawful) (H : Hashes) (fuel : Nat)
    (seed tag : Bytes) (t : HashType) (c : EcCipher G) :
    (seed.length < 16 ∨ t = .other → EcCipher.createWithKeyFromSeed H fuel (.ok E) seed tag t
      = some (.err .invalidArgument)) ∧
    (EcCipher.createWithKeyFromSeed H fuel (.ok E) seed tag t = some (.ok c) →
      0 ≤ c.privateKey ∧ c.privateKey < E.order ∧
      Ctx.prf H fuel seed tag E.order = some (.ok c.privateKey) ∧
      (c.privateKey ≠ 0 → EcCipher.Good E t c)) := by
  constructor
  · intro h
    simp only [EcCipher.createWithKeyFromSeed]
    split
    · rfl
    · rename_i h1
      rw [if_pos (by simp [EcCipher.validateHashType, h.resolve_left h1])]
  · intro h
    have prf_range : ∀ (fuel : Nat) (data : Bytes) (k : Int),
        Ctx.prf H fuel seed data E.order = some (.ok k) → 0 ≤ k ∧ k < E.order := by
      intro fuel
      induction fuel with
      | zero => intro data k h; simp [Ctx.prf] at h
      | succ n ih =>
        intro data k h
        simp only [Ctx.prf] at h
        split at h
        · simp at h
        · split at h
          · simp at h
          · split at h
            · rename_i hlt
              simp only [Option.some.injEq, Res.ok.injEq] at h
              subst h
              refine ⟨?_, hlt⟩
              have : 0 ≤ BN.ofBytes (H.hmacSha512 seed data) := by simp [BN.ofBytes]
              rcases this.lt_or_eq with h | h
              · simp only [BN.getLastNBits, Int.sign_eq_one_of_pos h]; positivity
              · simp [BN.getLastNBits, ← h]
            · exact ih _ _ h
    simp only [EcCipher.createWithKeyFromSeed] at h
    split at h
    · simp at h
    · split at h
      · simp at h
      · split at h
        · simp at h
        · rename_i k hk
          simp only [Option.some.injEq, Res.bind_eq_ok] at h
          obtain ⟨k', rfl, hc⟩ := h
          obtain ⟨hk0, hk1⟩ := prf_range _ _ _ hk
          have hkey : c.privateKey = k' := by
            simp only [EcCipher.make, Res.bind_eq_ok, Res.pure_eq, Res.ok.injEq] at hc
            obtain ⟨_, _, rfl⟩ := hc
            rfl
          refine ⟨hkey ▸ hk0, hkey ▸ hk1, hkey ▸ hk, fun hne => ?_⟩
          obtain ⟨c', hc', hg, -⟩ := EcCipher.make_good (t := t) hE
            (show 1 ≤ k' by rw [hkey] at hne; omega) hk1
          rw [hc] at hc'
          cases hc'; exact hg

example : ¬ C21SeedStatement toyEc .sha256 :=
  C21_seed_key_fails toyEc toyEc_lawful (by decide) _ (by decide)

/-! ### ElGamal -/

/-- The private key belongs to the public key. -/
def ElGamal.KeyPair (pk : ElGamal.PublicKey G) (sk : ElGamal.PrivateKey) : Prop :=
  pk.y = sk.x • pk.g

/-- `c` is an ElGamal encryption of `m` under `pk`. -/
def ElGamal.Encrypts (pk : ElGamal.PublicKey G) (c : ElGamal.Ct G) (m : G) : Prop :=
  ∃ r : Int, c.u = r • pk.g ∧ c.e = m + r • pk.y

theorem ElGamal.Encrypts.decrypt {pk : ElGamal.PublicKey G} {sk : ElGamal.PrivateKey}
    (hk : ElGamal.KeyPair pk sk) {c : ElGamal.Ct G} {m : G} (h : ElGamal.Encrypts pk c m) :
    ElGamal.decrypt sk c = .ok m := by
  obtain ⟨r, hu, he⟩ := h
  simp only [ElGamal.decrypt, hu, he, Res.ok.injEq]
  rw [show pk.y = sk.x • pk.g from hk, zsmul_comm pk.g r sk.x]
  abel

/-- **C23**.  Key generation succeeds and makes a matching pair of non-trivial keys;
encrypting any group element succeeds, for any randomness, and decrypts to it. -/
theorem C23_round_trip (E : EcGroup G) (hE : E.Lawful) (wk : Nat) :
    ∃ pk sk, ElGamal.generateKeyPair E wk = .ok (pk, sk) ∧
      1 ≤ sk.x ∧ sk.x < E.order ∧ pk.g = E.gen ∧ pk.y = sk.x • pk.g ∧
      ∀ (m : G) (w : Nat), ∃ c, ElGamal.encrypt E pk m w = .ok c ∧
        ElGamal.decrypt sk c = .ok m := by
  obtain ⟨x, hx, h1, h2⟩ := hE.generatePrivateKey_spec wk
  refine ⟨⟨E.gen, x • E.gen⟩, ⟨x⟩, by simp [ElGamal.generateKeyPair, hx], h1, h2, rfl, rfl,
    fun m w => ?_⟩
  obtain ⟨r, hr, -, -⟩ := hE.generatePrivateKey_spec w
  refine ⟨⟨r • E.gen, m + r • x • E.gen⟩, by simp [ElGamal.encrypt, hr], ?_⟩
  exact ElGamal.Encrypts.decrypt (pk := ⟨E.gen, x • E.gen⟩) rfl ⟨r, rfl, rfl⟩

/-- Ciphertexts obtained by any finite combination of the operations, with the
plaintext they should hold. -/
inductive ElGamal.Made (E : EcGroup G) (pk : ElGamal.PublicKey G) :
    ElGamal.Ct G → G → Prop
  | encrypt {m w c} : ElGamal.encrypt E pk m w = .ok c → Made E pk c m
  | zero {c} : ElGamal.getZero = .ok c → Made E pk c 0
  | mul {c1 c2 m1 m2 c} : Made E pk c1 m1 → Made E pk c2 m2 → ElGamal.mul c1 c2 = .ok c →
      Made E pk c (m1 + m2)
  | exp {c1 m1 c} {k : Int} : Made E pk c1 m1 → ElGamal.exp c1 k = .ok c → Made E pk c (k • m1)
  | reRandomize {c1 m1 w c} : Made E pk c1 m1 → ElGamal.reRandomize E pk c1 w = .ok c →
      Made E pk c m1
  | clone {c1 m1 c} : Made E pk c1 m1 → ElGamal.clone c1 = .ok c → Made E pk c m1

theorem ElGamal.Made.encrypts {E : EcGroup G} {pk : ElGamal.PublicKey G}
    {c : ElGamal.Ct G} {m : G} (h : ElGamal.Made E pk c m) : ElGamal.Encrypts pk c m := by
  induction h with
  | @encrypt m w c h =>
    simp only [ElGamal.encrypt, Res.bind_eq_ok, Res.pure_eq, Res.ok.injEq] at h
    obtain ⟨r, -, rfl⟩ := h
    exact ⟨r, rfl, rfl⟩
  | zero h =>
    simp only [ElGamal.getZero, Res.ok.injEq] at h
    subst h
    exact ⟨0, by simp, by simp⟩
  | mul _ _ h ih1 ih2 =>
    simp only [ElGamal.mul, Res.ok.injEq] at h
    subst h
    obtain ⟨r1, hu1, he1⟩ := ih1
    obtain ⟨r2, hu2, he2⟩ := ih2
    refine ⟨r1 + r2, by simp [hu1, hu2, add_zsmul], ?_⟩
    simp only [he1, he2, add_zsmul]
    abel
  | @exp c1 m1 c k _ h ih =>
    simp only [ElGamal.exp, Res.ok.injEq] at h
    subst h
    obtain ⟨r, hu, he⟩ := ih
    refine ⟨k * r, by simp [hu, mul_zsmul], ?_⟩
    simp [he, mul_zsmul]
  | reRandomize _ h ih =>
    simp only [ElGamal.reRandomize, Res.bind_eq_ok, Res.pure_eq, Res.ok.injEq] at h
    obtain ⟨s, -, rfl⟩ := h
    obtain ⟨r, hu, he⟩ := ih
    refine ⟨r + s, by simp [hu, add_zsmul], ?_⟩
    simp only [he, add_zsmul]
    abel
  | clone _ h ih =>
    simp only [ElGamal.clone, Res.ok.injEq] at h
    subst h
    exact ih

/-- **C24**.  Whatever finite combination of Encrypt, GetZero, Mul, Exp, ReRandomize
and CloneCiphertext made a ciphertext, it decrypts to the corresponding combination
of the plaintexts. -/
theorem C24_homomorphic (E : EcGroup G) (pk : ElGamal.PublicKey G) (sk : ElGamal.PrivateKey)
    (hk : pk.y = sk.x • pk.g) (c : ElGamal.Ct G) (m : G) (h : ElGamal.Made E pk c m) :
    ElGamal.decrypt sk c = .ok m :=
  h.encrypts.decrypt hk

/-- **C24**.  The operations always succeed, ReRandomize changes the ciphertext, and
`IsCiphertextZero` holds of what `GetZero` returns and only of encryptions of the
identity. -/
theorem C24_operations_total (E : EcGroup G) (hE : E.Lawful) (pk : ElGamal.PublicKey G)
    (sk : ElGamal.PrivateKey) (c c2 : ElGamal.Ct G) (k : Int) (w : Nat) :
    (ElGamal.mul c c2).isOk ∧ (ElGamal.exp c k).isOk ∧ (ElGamal.clone c = .ok c) ∧
    (∃ c', ElGamal.reRandomize E pk c w = .ok c' ∧ (pk.g ≠ 0 → c'.u ≠ c.u)) ∧
    (∃ z : ElGamal.Ct G, ElGamal.getZero = .ok z ∧ ElGamal.isCiphertextZero z = true) ∧
    (ElGamal.isCiphertextZero c = true → ElGamal.decrypt sk c = .ok 0) := by
  refine ⟨⟨_, rfl⟩, ⟨_, rfl⟩, rfl, ?_, ⟨_, rfl, by simp [ElGamal.isCiphertextZero]⟩, ?_⟩
  · obtain ⟨r, hr, h1, h2⟩ := hE.generatePrivateKey_spec w
    refine ⟨⟨c.u + r • pk.g, c.e + r • pk.y⟩, by simp [ElGamal.reRandomize, hr], fun hg => ?_⟩
    have := hE.zsmul_ne (hE.not_dvd h1 h2) hg
    simpa using this
  · intro h
    simp only [ElGamal.isCiphertextZero, Bool.and_eq_true, decide_eq_true_eq] at h
    simp [ElGamal.decrypt, h.1, h.2]

example : ∃ (pk : ElGamal.PublicKey (ZMod 11)) (sk : ElGamal.PrivateKey) (c : ElGamal.Ct (ZMod 11)),
    pk.y = sk.x • pk.g ∧ ElGamal.Made toyEc pk c ((3 : Int) • ((4 : ZMod 11) + 5) + 0) :=
  ⟨⟨1, 7⟩, ⟨7⟩, _, by decide,
    .mul (.exp (k := 3) (.mul (.encrypt (w := 2) rfl) (.encrypt (w := 5) rfl) rfl) rfl)
      (.zero rfl) rfl⟩

/-- **C25**.  Parties with key pairs `kps` on the same generator combine their public
keys; an encryption under the combined key is opened by applying `PartialDecrypt` with
every private key once, in any order. -/
theorem C25_joint_decryption (E : EcGroup G)
    (kps : List (ElGamal.PublicKey G × ElGamal.PrivateKey)) (hne : kps ≠ []) (g : G)
    (hk : ∀ kp ∈ kps, kp.1.g = g ∧ kp.1.y = kp.2.x • g) :
    ∃ pk, ElGamal.publicKeyFromShares (kps.map Prod.fst) = .ok pk ∧ pk.g = g ∧
      ∀ (m : G) (w : Nat) (c : ElGamal.Ct G), ElGamal.encrypt E pk m w = .ok c →
      ∀ order : List ElGamal.PrivateKey, order.Perm (kps.map Prod.snd) →
        ∃ c', order.foldlM (fun c sk => ElGamal.partialDecrypt sk c) c = .ok c' ∧ c'.e = m := by
  have loop : ∀ (l : List (ElGamal.PublicKey G × ElGamal.PrivateKey)) (y : G),
      (∀ kp ∈ l, kp.1.g = g ∧ kp.1.y = kp.2.x • g) →
      ElGamal.sharesLoop g (l.map Prod.fst) y
        = .ok (y + ((l.map fun kp => kp.2.x).sum) • g) := by
    intro l
    induction l with
    | nil => intro y _; simp [ElGamal.sharesLoop]
    | cons kp rest ih =>
      intro y h
      have h0 := h kp (by simp)
      simp only [List.map_cons, ElGamal.sharesLoop, h0.1, if_true,
        ih _ (fun k hk => h k (by simp [hk])), h0.2, List.sum_cons, add_zsmul]
      rw [add_assoc]
  have foldDec : ∀ (l : List ElGamal.PrivateKey) (c : ElGamal.Ct G),
      l.foldlM (fun c sk => ElGamal.partialDecrypt sk c) c
        = .ok ⟨c.u, c.e - ((l.map fun sk => sk.x).sum) • c.u⟩ := by
    intro l
    induction l with
    | nil => intro c; simp [ElGamal.partialDecrypt]
    | cons sk rest ih =>
      intro c
      simp only [List.foldlM_cons, ElGamal.partialDecrypt, ElGamal.decrypt, Res.ok_bind,
        Res.pure_eq] at ih ⊢
      rw [ih]
      simp only [List.map_cons, List.sum_cons, add_zsmul, Res.ok.injEq, ElGamal.Ct.mk.injEq,
        true_and]
      abel
  cases kps with
  | nil => exact absurd rfl hne
  | cons kp rest =>
    have h0 := hk kp (by simp)
    refine ⟨⟨g, kp.1.y + ((rest.map fun kp => kp.2.x).sum) • g⟩, ?_, rfl, ?_⟩
    · simp [ElGamal.publicKeyFromShares, h0.1, loop rest kp.1.y (fun k hk' => hk k (by simp [hk']))]
    · intro m w c hc order hperm
      rw [foldDec]
      refine ⟨_, rfl, ?_⟩
      have hsum : (order.map fun sk => sk.x).sum
          = kp.2.x + (rest.map fun kp => kp.2.x).sum := by
        rw [(hperm.map fun sk => sk.x).sum_eq]
        simp [List.map_map, Function.comp_def]
      simp only [ElGamal.encrypt, Res.bind_eq_ok, Res.pure_eq, Res.ok.injEq] at hc
      obtain ⟨r, -, rfl⟩ := hc
      simp only [hsum, h0.2, ← add_zsmul]
      rw [zsmul_comm g r]
      abel

/-- **C25**.  Combining no shares is refused; a share on another generator aborts. -/
theorem C25_bad_shares :
    ElGamal.publicKeyFromShares ([] : List (ElGamal.PublicKey G)) = .err .invalidArgument ∧
    ∀ (s : ElGamal.PublicKey G) (rest : List (ElGamal.PublicKey G)),
      (∃ t ∈ rest, t.g ≠ s.g) → ElGamal.publicKeyFromShares (s :: rest) = .crash := by
  refine ⟨rfl, fun s rest h => ?_⟩
  have : ∀ (rest : List (ElGamal.PublicKey G)) (y : G), (∃ t ∈ rest, t.g ≠ s.g) →
      ElGamal.sharesLoop s.g rest y = .crash := by
    intro rest
    induction rest with
    | nil => intro y h; simp at h
    | cons t rest ih =>
      intro y h
      simp only [ElGamal.sharesLoop]
      split
      · rename_i heq
        apply ih
        obtain ⟨t', ht', hne⟩ := h
        rcases List.mem_cons.1 ht' with rfl | hm
        · exact absurd heq.symm hne
        · exact ⟨t', hm, hne⟩
      · rfl
  simp [ElGamal.publicKeyFromShares, this rest s.y h]

example : ∃ kps : List (ElGamal.PublicKey (ZMod 11) × ElGamal.PrivateKey), kps.length = 3 ∧
    kps ≠ [] ∧ ∀ kp ∈ kps, kp.1.g = 1 ∧ kp.1.y = kp.2.x • (1 : ZMod 11) :=
  ⟨[(⟨1, 2⟩, ⟨2⟩), (⟨1, 7⟩, ⟨7⟩), (⟨1, 10⟩, ⟨10⟩)], rfl, by simp, by
    intro kp h
    simp only [List.mem_cons, List.not_mem_nil, or_false] at h
    rcases h with rfl | rfl | rfl <;> decide⟩

/-! ### CommutativeElGamal -/

/-- Objects with a private key, on curve `E`. -/
inductive CommOf (E : EcGroup G) (o : CommElGamal G) : Prop
  | newPair (w : Nat) (h : CommElGamal.createWithNewKeyPair (.ok E) w = .ok o)
  | fromKeys (pk : Bytes × Bytes) (sk : Bytes)
      (h : CommElGamal.createFromPublicAndPrivateKeys (.ok E) pk sk = .ok o)

theorem createECPoint_ne {E : EcGroup G} {bs : Bytes} {P : G} (h : E.createECPoint bs = .ok P) :
    P ≠ 0 := by
  simp only [EcGroup.createECPoint] at h
  split at h
  · cases h
  · split at h
    · cases h
    · cases h; assumption

theorem CommOf.facts {E : EcGroup G} (hE : E.Lawful) {o : CommElGamal G} (h : CommOf E o) :
    ∃ sk, o.priv = some sk ∧ o.group = E ∧ o.pub.y = sk.x • o.pub.g ∧ o.pub.g ≠ 0 ∧
      o.pub.y ≠ 0 ∧ 0 ≤ sk.x := by
  cases h with
  | newPair w h =>
    obtain ⟨x, hx, h1, h2⟩ := hE.generatePrivateKey_spec w
    simp only [CommElGamal.createWithNewKeyPair, ElGamal.generateKeyPair, Res.ok_bind, hx,
      Res.pure_eq, Res.ok.injEq] at h
    subst h
    exact ⟨⟨x⟩, rfl, rfl, rfl, hE.gen_ne, hE.zsmul_ne (hE.not_dvd h1 h2) hE.gen_ne, by
      show 0 ≤ x; omega⟩
  | fromKeys pk sk h =>
    simp only [CommElGamal.createFromPublicAndPrivateKeys, Res.ok_bind, Res.bind_eq_ok] at h
    obtain ⟨g, hg, y, hy, h⟩ := h
    split at h
    · cases h
    · rename_i hxy
      simp only [Res.pure_eq, Res.ok.injEq] at h
      subst h
      exact ⟨⟨_⟩, rfl, rfl, not_not.1 hxy, createECPoint_ne hg, createECPoint_ne hy, by
        show 0 ≤ BN.ofBytes sk; simp [BN.ofBytes]⟩

/-- **C26**.  Encrypting the encoding of a point and decrypting returns the encoding.
The only encryptions that fail are those with `m = -(y^r)`, for which the second
component is the point at infinity and has no encoding; they fail with an error. -/
theorem C26_round_trip (E : EcGroup G) (hE : E.Lawful) (o : CommElGamal G) (ho : CommOf E o)
    (m : G) (bs : Bytes) (hm : E.toBytesCompressed m = .ok bs) (w : Nat) :
    (∃ ct, o.encrypt bs w = .ok ct ∧ o.decrypt ct = .ok bs) ∨
    (o.encrypt bs w = .err .internal ∧
      ∃ r, E.generatePrivateKey w = .ok r ∧ m + r • o.pub.y = 0) := by
  obtain ⟨sk, hsk, hgr, hpk, hg, hy, -⟩ := ho.facts hE
  obtain ⟨r, hr, h1, h2⟩ := hE.generatePrivateKey_spec w
  have hd := (hE.toBytes_ok hm).2
  obtain ⟨bu, hbu, hdu⟩ := hE.toBytes_ne (hE.zsmul_ne (hE.not_dvd h1 h2) hg)
  by_cases he : m + r • o.pub.y = 0
  · right
    refine ⟨?_, r, hr, he⟩
    simp [CommElGamal.encrypt, hgr, hd, ElGamal.encrypt, hr, CommElGamal.ctToBytes, hbu, he,
      hE.toBytes_zero]
  · left
    obtain ⟨be, hbe, hde⟩ := hE.toBytes_ne he
    refine ⟨(bu, be), ?_, ?_⟩
    · simp [CommElGamal.encrypt, hgr, hd, ElGamal.encrypt, hr, CommElGamal.ctToBytes, hbu, hbe]
    · have : m + r • o.pub.y + -(sk.x • r • o.pub.g) = m := by
        rw [hpk, zsmul_comm o.pub.g r sk.x]; abel
      simp [CommElGamal.decrypt, hsk, hgr, hdu, hde, ElGamal.decrypt, this, hm]

/-- **C26**.  `EncryptIdentityElement` always succeeds, and decrypting its result
reports an error (the identity has no encoding) rather than a wrong plaintext. -/
theorem C26_identity (E : EcGroup G) (hE : E.Lawful) (o : CommElGamal G) (ho : CommOf E o)
    (w : Nat) : ∃ ct, o.encryptIdentity w = .ok ct ∧ o.decrypt ct = .err .internal := by
  obtain ⟨sk, hsk, hgr, hpk, hg, hy, -⟩ := ho.facts hE
  obtain ⟨r, hr, h1, h2⟩ := hE.generatePrivateKey_spec w
  obtain ⟨bu, hbu, hdu⟩ := hE.toBytes_ne (hE.zsmul_ne (hE.not_dvd h1 h2) hg)
  obtain ⟨be, hbe, hde⟩ := hE.toBytes_ne (hE.zsmul_ne (hE.not_dvd h1 h2) hy)
  refine ⟨(bu, be), ?_, ?_⟩
  · simp [CommElGamal.encryptIdentity, ElGamal.encrypt, hgr, hr, CommElGamal.ctToBytes, hbu, hbe]
  · have : r • o.pub.y + -(sk.x • r • o.pub.g) = 0 := by
      rw [hpk, zsmul_comm o.pub.g r sk.x]; abel
    simp [CommElGamal.decrypt, hsk, hgr, hdu, hde, ElGamal.decrypt, this, hE.toBytes_zero]

/-- **C26**.  An object made from a public key alone refuses to decrypt and to reveal
a private key. -/
theorem C26_public_only (E : EcGroup G) (o : CommElGamal G) (pk : Bytes × Bytes)
    (h : CommElGamal.createFromPublicKey (.ok E) pk = .ok o) (ct : Bytes × Bytes) :
    o.decrypt ct = .err .invalidArgument ∧ o.getPrivateKeyBytes = .err .invalidArgument := by
  simp only [CommElGamal.createFromPublicKey, Res.ok_bind, Res.bind_eq_ok, Res.pure_eq,
    Res.ok.injEq] at h
  obtain ⟨g, -, y, -, rfl⟩ := h
  exact ⟨rfl, rfl⟩

/-- **C26**.  A mismatched key pair is refused; exporting the keys of an object and
importing them again gives back the same object. -/
theorem C26_key_export (E : EcGroup G) (hE : E.Lawful) :
    (∀ pk sk g y, E.createECPoint pk.1 = .ok g → E.createECPoint pk.2 = .ok y →
      y ≠ BN.ofBytes sk • g →
      CommElGamal.createFromPublicAndPrivateKeys (.ok E) pk sk = .err .invalidArgument) ∧
    (∀ o, CommOf E o → ∃ pk sk, o.getPublicKeyBytes = .ok pk ∧ o.getPrivateKeyBytes = .ok sk ∧
      CommElGamal.createFromPublicAndPrivateKeys (.ok E) pk sk = .ok o) := by
  constructor
  · intro pk sk g y hg hy hne
    simp [CommElGamal.createFromPublicAndPrivateKeys, hg, hy, hne]
  · intro o ho
    obtain ⟨sk, hsk, hgr, hpk, hg, hy, hx⟩ := ho.facts hE
    obtain ⟨bg, hbg, hdg⟩ := hE.toBytes_ne hg
    obtain ⟨by', hby, hdy⟩ := hE.toBytes_ne hy
    refine ⟨(bg, by'), BN.natToBytes sk.x.toNat, ?_, ?_, ?_⟩
    · simp [CommElGamal.getPublicKeyBytes, hgr, hbg, hby]
    · simp only [CommElGamal.getPrivateKeyBytes, hsk, BN.toBytes]
      rw [if_neg (by omega)]
    · have hb : BN.ofBytes (BN.natToBytes sk.x.toNat) = sk.x := by
        rw [BN.ofBytes_natToBytes]; omega
      simp only [CommElGamal.createFromPublicAndPrivateKeys, Res.ok_bind, hdg, hdy, hb]
      rw [if_neg (not_not.2 hpk)]
      obtain ⟨gr, pub, priv⟩ := o
      simp only at hgr hsk
      subst hgr hsk
      rfl

/-- **C22**.  Re-encrypting, under a cipher key `K`, an ElGamal encryption of `m` gives
an ElGamal encryption of `K·m` under the same ElGamal key. -/
theorem C22_reencrypt_elgamal (E : EcGroup G) (hE : E.Lawful) (t : HashType) (K : EcCipher G)
    (hK : CipherOf E t K) (pk : ElGamal.PublicKey G) (c : ElGamal.Ct G) (m : G)
    (hc : ElGamal.Encrypts pk c m) (ct : Bytes × Bytes)
    (hu : E.toBytesCompressed c.u = .ok ct.1) (he : E.toBytesCompressed c.e = .ok ct.2) :
    ∃ ct' c', K.reEncryptElGamal ct = .ok ct' ∧
      E.createECPoint ct'.1 = .ok c'.u ∧ E.createECPoint ct'.2 = .ok c'.e ∧
      ElGamal.Encrypts pk c' (K.privateKey • m) := by
  have g := hK.good hE
  obtain ⟨hu0, hud⟩ := hE.toBytes_ok hu
  obtain ⟨he0, hed⟩ := hE.toBytes_ok he
  obtain ⟨bu, hbu, hdu⟩ := hE.toBytes_ne (g.smul_ne hE hu0)
  obtain ⟨be, hbe, hde⟩ := hE.toBytes_ne (g.smul_ne hE he0)
  refine ⟨(bu, be), ⟨K.privateKey • c.u, K.privateKey • c.e⟩, ?_, hdu, hde, ?_⟩
  · simp [EcCipher.reEncryptElGamal, g.group, hud, hed, ElGamal.exp, hbu, hbe]
  · obtain ⟨r, h1, h2⟩ := hc
    refine ⟨K.privateKey * r, by simp [h1, mul_zsmul], by simp [h2, mul_zsmul]⟩

/-- **C22 / C26, layers**.  Take an ElGamal encryption of an encoded point, re-encrypt
it under any list of cipher keys, decrypt the ElGamal layer, and remove the cipher keys
in any order: the original encoding comes back. -/
theorem C26_layers (E : EcGroup G) (hE : E.Lawful) (t : HashType) (o : CommElGamal G)
    (ho : CommOf E o) (bs : Bytes) (m : G) (hm : E.toBytesCompressed m = .ok bs) (w : Nat)
    (ct : Bytes × Bytes) (hct : o.encrypt bs w = .ok ct) (Ks order : List (EcCipher G))
    (hKs : ∀ K ∈ Ks, CipherOf E t K) (hperm : order.Perm Ks) :
    ∃ ct' inner, Ks.foldlM (fun c K => K.reEncryptElGamal c) ct = .ok ct' ∧
      o.decrypt ct' = .ok inner ∧
      inner = (match Ks.foldlM (fun b K => K.reEncrypt b) bs with | .ok b => b | _ => []) ∧
      order.foldlM (fun b K => K.decrypt b) inner = .ok bs := by
  obtain ⟨sk, hsk, hgr, hpk, hg, hy, -⟩ := ho.facts hE
  -- product of the keys
  have hm0 := (hE.toBytes_ok hm).1
  have enc : ∃ c, ElGamal.Encrypts o.pub c m ∧ E.toBytesCompressed c.u = .ok ct.1 ∧
      E.toBytesCompressed c.e = .ok ct.2 := by
    simp only [CommElGamal.encrypt, CommElGamal.ctToBytes, hgr, (hE.toBytes_ok hm).2,
      Res.ok_bind, Res.bind_eq_ok, Res.pure_eq, Res.ok.injEq, ElGamal.encrypt] at hct
    obtain ⟨c, ⟨r, hr, rfl⟩, u, hu, e, he, rfl⟩ := hct
    exact ⟨_, ⟨r, rfl, rfl⟩, hu, he⟩
  have layers : ∀ (l : List (EcCipher G)), (∀ K ∈ l, CipherOf E t K) →
      ∀ (m : G) (bs : Bytes) (ct : Bytes × Bytes) (c : ElGamal.Ct G),
      E.toBytesCompressed m = .ok bs →
      ElGamal.Encrypts o.pub c m → E.toBytesCompressed c.u = .ok ct.1 →
      E.toBytesCompressed c.e = .ok ct.2 →
      ∃ ct' c' bs', l.foldlM (fun c K => K.reEncryptElGamal c) ct = .ok ct' ∧
        l.foldlM (fun b K => K.reEncrypt b) bs = .ok bs' ∧
        E.toBytesCompressed ((l.map fun K => K.privateKey).prod • m) = .ok bs' ∧
        ElGamal.Encrypts o.pub c' ((l.map fun K => K.privateKey).prod • m) ∧
        E.createECPoint ct'.1 = .ok c'.u ∧ E.createECPoint ct'.2 = .ok c'.e := by
    intro l
    induction l with
    | nil =>
      intro _ m bs ct c hm hc hu he
      exact ⟨ct, c, bs, rfl, rfl, by simpa using hm, by simpa using hc,
        (hE.toBytes_ok hu).2, (hE.toBytes_ok he).2⟩
    | cons K rest ih =>
      intro hl m bs ct c hm hc hu he
      have hK := hl K (by simp)
      have gK := hK.good hE
      obtain ⟨hm0, hmd⟩ := hE.toBytes_ok hm
      obtain ⟨ct1, c1, h1, h2, h3, h4⟩ := C22_reencrypt_elgamal E hE t K hK o.pub c m hc ct hu he
      obtain ⟨b1, hb1, hd1⟩ := hE.toBytes_ne (gK.smul_ne hE hm0)
      have hu1 : E.toBytesCompressed c1.u = .ok ct1.1 ∧ E.toBytesCompressed c1.e = .ok ct1.2 := by
        simp only [EcCipher.reEncryptElGamal, gK.group, Res.bind_eq_ok, ElGamal.exp,
          Res.ok.injEq, Res.pure_eq] at h1
        obtain ⟨u, hu', e, he', r, rfl, su, hsu, se, hse, rfl⟩ := h1
        have hcu := (hE.toBytes_ok hsu).2
        have hce := (hE.toBytes_ok hse).2
        simp only at h2 h3 hsu hse ⊢
        rw [hcu] at h2
        rw [hce] at h3
        rw [Res.ok.injEq] at h2 h3
        exact ⟨h2 ▸ hsu, h3 ▸ hse⟩
      obtain ⟨ct', c', bs', e1, e2, e3, e4, e5, e6⟩ :=
        ih (fun K' h => hl K' (by simp [h])) (K.privateKey • m) b1 ct1 c1 hb1 h4 hu1.1 hu1.2
      refine ⟨ct', c', bs', ?_, ?_, ?_, ?_, e5, e6⟩
      · simp only [List.foldlM_cons, h1, Res.ok_bind, e1]
      · simp only [List.foldlM_cons, gK.reEncrypt_eq hmd, hb1, Res.ok_bind, e2]
      · rw [List.map_cons, List.prod_cons, mul_zsmul']; exact e3
      · rw [List.map_cons, List.prod_cons, mul_zsmul']; exact e4
  have unlayer : ∀ (l : List (EcCipher G)), (∀ K ∈ l, CipherOf E t K) → ∀ (m : G) (b bs : Bytes),
      E.toBytesCompressed m = .ok bs →
      E.toBytesCompressed ((l.map fun K => K.privateKey).prod • m) = .ok b →
      l.foldlM (fun b K => K.decrypt b) b = .ok bs := by
    intro l
    induction l with
    | nil =>
      intro _ m b bs hm hb
      simp only [List.map_nil, List.prod_nil, one_zsmul] at hb
      rw [hm] at hb
      cases hb; rfl
    | cons K rest ih =>
      intro hl m b bs hm hb
      have gK := (hl K (by simp)).good hE
      rw [List.map_cons, List.prod_cons, mul_zsmul] at hb
      have hne : (rest.map fun K => K.privateKey).prod • m ≠ 0 := by
        intro h0; rw [h0, zsmul_zero, hE.toBytes_zero] at hb; cases hb
      obtain ⟨b1, hb1, -⟩ := hE.toBytes_ne hne
      simp only [List.foldlM_cons, gK.decrypt_eq (hE.toBytes_ok hb).2, gK.inv_smul hE, hb1,
        Res.ok_bind]
      exact ih (fun K' h => hl K' (by simp [h])) m b1 bs hm hb1
  obtain ⟨c, hc, hu, he⟩ := enc
  obtain ⟨ct', c', bs', e1, e2, e3, e4, e5, e6⟩ := layers Ks hKs m bs ct c hm hc hu he
  refine ⟨ct', bs', e1, ?_, by rw [e2], ?_⟩
  · simp only [CommElGamal.decrypt, hsk, hgr, e5, e6, Res.ok_bind]
    rw [show ElGamal.decrypt sk { u := c'.u, e := c'.e } = .ok _ from e4.decrypt hpk, Res.ok_bind]
    exact e3
  · apply unlayer order (fun K h => hKs K (hperm.mem_iff.1 h)) m bs' bs hm
    rw [(hperm.map fun K => K.privateKey).prod_eq]
    exact e3

/-- A nontrivial instance of C26: an object, a plaintext point, an encryption that
succeeds, and two cipher layers. -/
example : ∃ (o : CommElGamal (ZMod 11)) (ct : Bytes × Bytes) (K1 K2 : EcCipher (ZMod 11)),
    CommOf toyEc o ∧ toyEc.toBytesCompressed 4 = .ok [4] ∧ o.encrypt [4] 4 = .ok ct ∧
    CipherOf toyEc .sha256 K1 ∧ CipherOf toyEc .sha256 K2 :=
  ⟨⟨toyEc, ⟨1, 3⟩, some ⟨3⟩⟩, ([5], [8]), ⟨toyEc, 3, 4, .sha256⟩, ⟨toyEc, 7, 8, .sha256⟩,
    .newPair 2 rfl, by decide, by decide, .fromKey [3] rfl, .fromKey [7] rfl⟩

end PJC
