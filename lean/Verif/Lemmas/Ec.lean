import Mathlib.Data.Int.ModEq
import Mathlib.FieldTheory.Finite.Basic
import Mathlib.GroupTheory.OrderOfElement
import Mathlib.Tactic.Ring
import Verif.Model.EcCipher
import Verif.Lemmas.BigNum
/-
Facts about the group interface: what a curve object must satisfy (`EcGroup.Lawful`)
and what follows for ciphers and ElGamal.
-/
namespace PJC

set_option linter.unusedSectionVars false

variable {G : Type} [AddCommGroup G] [DecidableEq G]

/-- What the code expects of the curve: a group of prime order (the curves have
cofactor one), with an encoding defined exactly on the points other than infinity and
inverted by the decoder.  `Lemmas/Weierstrass.lean` proves this for Weierstrass curves
of prime order with SEC1 encoding. -/
structure EcGroup.Lawful (E : EcGroup G) : Prop where
  prime : Nat.Prime E.order
  order_smul : ∀ P : G, E.order • P = 0
  gen_ne : E.gen ≠ 0
  encode_zero : E.point2oct 0 = none
  decode_encode : ∀ P : G, P ≠ 0 → ∃ bs, E.point2oct P = some bs ∧ E.oct2point bs = some P

namespace EcGroup

variable {E : EcGroup G}

namespace Lawful

theorem toBytes_zero (hE : E.Lawful) : E.toBytesCompressed 0 = .err .internal := by
  simp [toBytesCompressed, hE.encode_zero]

theorem toBytes_ne (hE : E.Lawful) {P : G} (hP : P ≠ 0) :
    ∃ bs, E.toBytesCompressed P = .ok bs ∧ E.createECPoint bs = .ok P := by
  obtain ⟨bs, h1, h2⟩ := hE.decode_encode P hP
  exact ⟨bs, by simp [toBytesCompressed, h1], by simp [createECPoint, h2, hP]⟩

theorem toBytes_ok (hE : E.Lawful) {P : G} {bs : Bytes} (h : E.toBytesCompressed P = .ok bs) :
    P ≠ 0 ∧ E.createECPoint bs = .ok P := by
  by_cases hP : P = 0
  · subst hP; rw [hE.toBytes_zero] at h; cases h
  · obtain ⟨bs', h1, h2⟩ := hE.toBytes_ne hP
    rw [h] at h1
    cases h1
    exact ⟨hP, h2⟩

theorem toBytes_inj (hE : E.Lawful) {P Q : G} {bs : Bytes} (hP : E.toBytesCompressed P = .ok bs)
    (hQ : E.toBytesCompressed Q = .ok bs) : P = Q := by
  have h1 := (hE.toBytes_ok hP).2
  have h2 := (hE.toBytes_ok hQ).2
  rw [h1] at h2
  cases h2; rfl

theorem order_zsmul (hE : E.Lawful) (P : G) : (E.order : Int) • P = 0 := by
  rw [natCast_zsmul]; exact hE.order_smul P

/-- Scalars only matter modulo the order. -/
theorem zsmul_congr (hE : E.Lawful) {a b : Int} (h : a ≡ b [ZMOD E.order]) (P : G) :
    a • P = b • P := by
  obtain ⟨k, hk⟩ := h.dvd
  have : b = a + k * E.order := by linarith [hk, mul_comm (E.order : Int) k]
  rw [this, add_zsmul, mul_zsmul, hE.order_zsmul, zsmul_zero, add_zero]

/-- A scalar that is not a multiple of the order kills no point but infinity. -/
theorem zsmul_ne (hE : E.Lawful) {k : Int} (hk : ¬ (E.order : Int) ∣ k) {P : G} (hP : P ≠ 0) :
    k • P ≠ 0 := by
  intro h
  apply hP
  have hp := hE.prime
  have hco : IsCoprime (E.order : Int) k := by
    rw [Int.isCoprime_iff_gcd_eq_one]
    rw [Int.gcd_comm]
    have : Nat.Coprime E.order k.natAbs :=
      (Nat.Prime.coprime_iff_not_dvd hp).2 (fun hd => hk (Int.natCast_dvd.2 hd))
    have h2 := this.symm
    simpa [Int.gcd, Nat.Coprime] using h2
  obtain ⟨u, v, huv⟩ := hco
  calc P = (1 : Int) • P := (one_zsmul P).symm
    _ = (u * E.order + v * k) • P := by rw [huv]
    _ = 0 := by rw [add_zsmul, mul_zsmul, mul_zsmul, hE.order_zsmul, h]; simp

theorem not_dvd (_hE : E.Lawful) {k : Int} (h1 : 1 ≤ k) (h2 : k < E.order) :
    ¬ (E.order : Int) ∣ k := by
  intro h
  have := Int.le_of_dvd (by omega) h
  omega

theorem generatePrivateKey_spec (hE : E.Lawful) (w : Nat) :
    ∃ k, E.generatePrivateKey w = .ok k ∧ 1 ≤ k ∧ k < E.order := by
  have h2 := hE.prime.two_le
  have hpos : ¬ ((E.order : Int) - 1 ≤ 0) := by omega
  refine ⟨(w : Int) % ((E.order : Int) - 1) + 1, ?_, ?_, ?_⟩
  · simp only [generatePrivateKey, Ctx.randBetween, Ctx.randLessThan]
    rw [if_pos (by omega), if_neg hpos]
    rfl
  · have := Int.emod_nonneg (w : Int) (b := (E.order : Int) - 1) (by omega)
    omega
  · have := Int.emod_lt_of_pos (w : Int) (b := (E.order : Int) - 1) (by omega)
    omega

end Lawful

/-- `scalar^(order-2)` is the inverse of the scalar modulo a prime order. -/
theorem invertPrivateScalar_spec {q : Nat} (hq : q.Prime) {k : Int} (h1 : 1 ≤ k) (h2 : k < q) :
    ∃ i, EcCipher.invertPrivateScalar k q = .ok i ∧ 0 ≤ i ∧ i * k ≡ 1 [ZMOD q] := by
  have hq2 := hq.two_le
  refine ⟨k ^ ((q : Int) - 2).toNat % q, ?_, ?_, ?_⟩
  · simp only [EcCipher.invertPrivateScalar, BN.modExp]
    rw [if_neg (by omega), if_neg (by omega)]
  · exact Int.emod_nonneg _ (by omega)
  · haveI : Fact q.Prime := ⟨hq⟩
    have hk : ((k : Int) : ZMod q) ≠ 0 := by
      intro h
      rw [ZMod.intCast_zmod_eq_zero_iff_dvd] at h
      have := Int.le_of_dvd (by omega) h
      omega
    have hexp : ((q : Int) - 2).toNat + 1 = q - 1 := by omega
    rw [← ZMod.intCast_eq_intCast_iff]
    push_cast
    rw [← pow_succ, hexp]
    exact ZMod.pow_card_sub_one_eq_one hk

end EcGroup

namespace EcCipher

/-- A cipher object as every successful constructor with a valid key leaves it. -/
structure Good (E : EcGroup G) (t : HashType) (c : EcCipher G) : Prop where
  group : c.group = E
  hashType : c.hashType = t
  key_pos : 1 ≤ c.privateKey
  key_lt : c.privateKey < E.order
  inv : c.privateKeyInverse * c.privateKey ≡ 1 [ZMOD E.order]
  inv_nonneg : 0 ≤ c.privateKeyInverse

theorem make_good {E : EcGroup G} (hE : E.Lawful) {k : Int} {t : HashType} (h1 : 1 ≤ k)
    (h2 : k < E.order) : ∃ c, make E k t = .ok c ∧ Good E t c ∧ c.privateKey = k := by
  obtain ⟨i, hi, hi0, hik⟩ := EcGroup.invertPrivateScalar_spec hE.prime h1 h2
  refine ⟨{ group := E, privateKey := k, privateKeyInverse := i, hashType := t }, ?_, ?_, rfl⟩
  · simp [make, hi]
  · exact ⟨rfl, rfl, h1, h2, hik, hi0⟩

theorem Good.smul_ne {E : EcGroup G} (hE : E.Lawful) {t} {c : EcCipher G} (hc : Good E t c)
    {P : G} (hP : P ≠ 0) : c.privateKey • P ≠ 0 :=
  hE.zsmul_ne (hE.not_dvd hc.key_pos hc.key_lt) hP

theorem Good.inv_smul {E : EcGroup G} (hE : E.Lawful) {t} {c : EcCipher G} (hc : Good E t c)
    (P : G) : c.privateKeyInverse • c.privateKey • P = P := by
  rw [← mul_zsmul', mul_comm, hE.zsmul_congr hc.inv, one_zsmul]

theorem Good.smul_inj {E : EcGroup G} (hE : E.Lawful) {t} {c : EcCipher G} (hc : Good E t c)
    {P Q : G} (h : c.privateKey • P = c.privateKey • Q) : P = Q := by
  rw [← hc.inv_smul hE P, h, hc.inv_smul hE]

/-- `Encrypt` of a string whose hash is the point `P`. -/
theorem Good.encrypt_eq {E : EcGroup G} {t} {c : EcCipher G} (hc : Good E t c)
    {a : Bytes} {P : G} (h : c.hashToTheCurveInternal a = .ok P) :
    c.encrypt a = E.toBytesCompressed (c.privateKey • P) := by
  simp [encrypt, h, encryptPoint, hc.group]

theorem Good.reEncrypt_eq {E : EcGroup G} {t} {c : EcCipher G} (hc : Good E t c)
    {ct : Bytes} {P : G} (h : E.createECPoint ct = .ok P) :
    c.reEncrypt ct = E.toBytesCompressed (c.privateKey • P) := by
  simp [reEncrypt, hc.group, h, encryptPoint]

theorem Good.decrypt_eq {E : EcGroup G} {t} {c : EcCipher G} (hc : Good E t c)
    {ct : Bytes} {P : G} (h : E.createECPoint ct = .ok P) :
    c.decrypt ct = E.toBytesCompressed (c.privateKeyInverse • P) := by
  simp [decrypt, hc.group, h]

theorem Good.hash_eq {E : EcGroup G} {t} {c c' : EcCipher G} (hc : Good E t c)
    (hc' : Good E t c') (a : Bytes) :
    c.hashToTheCurveInternal a = c'.hashToTheCurveInternal a := by
  simp only [hashToTheCurveInternal, hc.group, hc'.group, hc.hashType, hc'.hashType]

end EcCipher
end PJC
