import Verif.Props.Paillier
import Mathlib.GroupTheory.OrderOfElement
/-
Property C86: the draws of private-key Paillier encryption blind perfectly.

Specification: `encryptWithRand m r` of the public key is the textbook encryption
`(1+n)^m r^(n^s) mod n^(s+1)`, `r` a unit modulo `n` (C14 relates the two); the claim is that the
draws `1 ≤ rp < p`, `1 ≤ rq < q` of the private key reach every textbook encryption of `m`, each by
exactly one pair of draws.
-/
namespace PJC.Props
open PJC

theorem getGeneratorOfPrimePowers_primitive {p g : Int} (h : getGeneratorOfPrimePowers p = .ok g) :
    g * g % p ≠ 1 ∧ g ^ (p.toNat / 2) % p ≠ 1 := by
  unfold getGeneratorOfPrimePowers getGeneratorForSafePrime at h
  simp only [Res.bind_eq_ok] at h
  obtain ⟨g0, ⟨safe, hs, h0⟩, h⟩ := h
  split at h0
  · cases h0
  rename_i hsafe
  have hst : safe = true := by simpa using hsafe
  subst hst
  obtain ⟨P, rfl, hP, h3, h2, hq⟩ := isSafePrime_true hs
  rw [div_two_of_odd h2 (by omega)] at h0
  simp only [Res.ok_bind] at h0
  obtain ⟨-, hgood, -⟩ := generatorLoop_spec _ _ _ _ _ h0
  rw [Int.toNat_natCast] at hgood
  rw [Int.toNat_natCast]
  rw [not_or] at hgood
  have key : ∀ g : Int, g ≡ g0 [ZMOD (P : Int)] →
      g * g % (P : Int) ≠ 1 ∧ g ^ (P / 2) % (P : Int) ≠ 1 := by
    intro g hg
    have h1 : g * g % (P : Int) = g0 * g0 % (P : Int) := hg.mul hg
    have h2 : g ^ (P / 2) % (P : Int) = g0 ^ (P / 2) % (P : Int) := hg.pow _
    rw [h1, h2]
    exact hgood
  split at h
  · cases h
    exact key _ (by simp [Int.ModEq])
  · cases h
    exact key _ (Int.ModEq.refl _)

theorem PrimeCrypto.new_gP {cfg : ExpCfg} {p q : Int} {s : Nat} {pc : PrimeCrypto}
    (h : PrimeCrypto.new cfg p q s = .ok pc) : getGeneratorOfPrimePowers p = .ok pc.gP := by
  unfold PrimeCrypto.new at h
  simp only [Res.bind_eq_ok, Res.pure_eq, Res.ok.injEq] at h
  obtain ⟨pre, hpre, lam, hlam, oth, hoth, tab, htab, g, hg, base, hbase, fbe, hfbe, rfl⟩ := h
  exact hg

/-- The generator found for a safe prime is a primitive root: every unit is one of its powers, with
one exponent in `[1, p)`; two exponents that agree after multiplication by a number coprime to
`p - 1` are equal. -/
theorem primitive_root {p : Nat} (hp : p.Prime) (h3 : 3 < p) (hodd : p % 2 = 1)
    (hhalf : (p / 2).Prime) {g : Int} (hg : IsCoprime g (p : Int)) (h1 : g * g % (p : Int) ≠ 1)
    (h2 : g ^ (p / 2) % (p : Int) ≠ 1) :
    (∀ r : Int, IsCoprime r (p : Int) → ∃ e : Nat, 1 ≤ e ∧ e < p ∧ g ^ e ≡ r [ZMOD (p : Int)]) ∧
    (∀ k : Nat, Nat.Coprime k (p - 1) → ∀ a b : Nat, 1 ≤ a → a < p → 1 ≤ b → b < p →
      g ^ (a * k) ≡ g ^ (b * k) [ZMOD (p : Int)] → a = b) := by
  have := Fact.mk hp
  have unit : ∀ r : Int, IsCoprime r (p : Int) → IsUnit ((r : Int) : ZMod p) := by
    intro r hr
    rw [isUnit_iff_ne_zero]
    intro h0
    rw [ZMod.intCast_zmod_eq_zero_iff_dvd] at h0
    have := hr.isUnit_of_dvd' h0 dvd_rfl
    rw [Int.isUnit_iff_natAbs_eq, Int.natAbs_natCast] at this
    exact hp.one_lt.ne' this
  obtain ⟨u, hu⟩ := unit g hg
  have cast : ∀ e : Nat, (((g ^ e : Int)) : ZMod p) = ((u ^ e : (ZMod p)ˣ) : ZMod p) := by
    intro e; push_cast; rw [hu]
  have one : ∀ e : Nat, g ^ e % (p : Int) ≠ 1 → u ^ e ≠ 1 := by
    intro e he hc
    apply he
    have : ((g ^ e : Int) : ZMod p) = ((1 : Int) : ZMod p) := by
      rw [cast, hc]; simp
    have := (ZMod.intCast_eq_intCast_iff' _ _ _).1 this
    rw [this]
    exact Int.emod_eq_of_lt (by norm_num) (by exact_mod_cast hp.one_lt)
  have ho : orderOf u = p - 1 := by
    have hdvd : orderOf u ∣ p - 1 := orderOf_dvd_of_pow_eq_one (ZMod.units_pow_card_sub_one_eq_one p u)
    have e : p - 1 = 2 * (p / 2) := by omega
    have n1 : ¬ orderOf u ∣ 2 := by
      intro h
      exact one 2 (by rwa [pow_two]) (orderOf_dvd_iff_pow_eq_one.1 h)
    have n2 : ¬ orderOf u ∣ p / 2 := by
      intro h
      exact one _ h2 (orderOf_dvd_iff_pow_eq_one.1 h)
    rw [e] at hdvd ⊢
    rcases (Nat.dvd_mul.1 hdvd) with ⟨a, b, ha, hb, hab⟩
    rcases (Nat.dvd_prime Nat.prime_two).1 ha with rfl | rfl
    · rw [one_mul] at hab
      exact absurd (hab ▸ hb) n2
    · rcases (Nat.dvd_prime hhalf).1 hb with rfl | rfl
      · rw [mul_one] at hab
        exact absurd (hab ▸ dvd_rfl) n1
      · exact hab.symm
  constructor
  · intro r hr
    obtain ⟨v, hv⟩ := unit r hr
    have hmem : v ∈ Subgroup.zpowers u := by
      have : Subgroup.zpowers u = ⊤ := by
        rw [← Subgroup.card_eq_iff_eq_top, Nat.card_zpowers, ho, Nat.card_eq_fintype_card,
          ZMod.card_units_eq_totient, Nat.totient_prime hp]
      rw [this]; trivial
    rw [mem_zpowers_iff_mem_range_orderOf, ho] at hmem
    simp only [Finset.mem_image, Finset.mem_range] at hmem
    obtain ⟨e, he, hev⟩ := hmem
    have conv : ∀ e : Nat, u ^ e = v → g ^ e ≡ r [ZMOD (p : Int)] := by
      intro e hev
      apply (ZMod.intCast_eq_intCast_iff _ _ _).1
      rw [cast, hev, hv]
    by_cases h0 : e = 0
    · refine ⟨p - 1, by omega, by omega, conv _ ?_⟩
      rw [← hev, h0, pow_zero, ← ho, pow_orderOf_eq_one]
    · exact ⟨e, by omega, by omega, conv _ hev⟩
  · intro k hk a b ha1 ha hb1 hb h
    have h' : u ^ (a * k) = u ^ (b * k) := by
      apply Units.ext
      rw [← cast, ← cast]
      exact (ZMod.intCast_eq_intCast_iff _ _ _).2 h
    rw [pow_eq_pow_iff_modEq, ho] at h'
    have h2 : a ≡ b [MOD p - 1] := Nat.ModEq.cancel_right_of_coprime hk.symm h'
    by_contra hne
    rcases Nat.lt_or_gt_of_ne hne with hl | hl
    · have := (Nat.modEq_iff_dvd' hl.le).1 h2
      have := Nat.le_of_dvd (by omega) this
      omega
    · have := (Nat.modEq_iff_dvd' hl.le).1 h2.symm
      have := Nat.le_of_dvd (by omega) this
      omega

theorem pow_lift (a b s : Nat) (u v : Int) (huv : u ≡ v [ZMOD (a : Int)]) :
    u ^ (a * b) ^ s ≡ v ^ (a * b) ^ s [ZMOD (a : Int) ^ (s + 1)] := by
  have h1 := dvd_sub_pow_of_dvd_sub (R := Int) (p := a) (a := v) (b := u)
    (by exact_mod_cast huv.dvd) s
  have h2 : u ^ a ^ s ≡ v ^ a ^ s [ZMOD (a : Int) ^ (s + 1)] := Int.modEq_iff_dvd.2 h1
  have h3 := h2.pow (b ^ s)
  rwa [← pow_mul, ← pow_mul, ← mul_pow] at h3

/-- What a private key object for `p`, `q` knows about its two generators. -/
theorem PrivatePaillier.generators {cfg : ExpCfg} {p q s : Nat} (hs : 1 ≤ s)
    {sk : PrivatePaillier} (hsk : PrivatePaillier.new cfg p q s = .ok sk) :
    (sk.pCrypto.gP * sk.pCrypto.gP % (p : Int) ≠ 1 ∧ sk.pCrypto.gP ^ (p / 2) % (p : Int) ≠ 1) ∧
    (sk.qCrypto.gP * sk.qCrypto.gP % (q : Int) ≠ 1 ∧ sk.qCrypto.gP ^ (q / 2) % (q : Int) ≠ 1) := by
  unfold PrivatePaillier.new at hsk
  simp only [Res.bind_eq_ok, Res.pure_eq, Res.ok.injEq] at hsk
  obtain ⟨pc, hpc, qc, hqc, ce, -, cd, -, rfl⟩ := hsk
  have h1 := getGeneratorOfPrimePowers_primitive (PrimeCrypto.new_gP hpc)
  have h2 := getGeneratorOfPrimePowers_primitive (PrimeCrypto.new_gP hqc)
  rw [Int.toNat_natCast] at h1 h2
  exact ⟨h1, h2⟩

theorem coprime_parts {p q : Nat} {r : Int} (h : Int.gcd r ((p * q : Nat) : Int) = 1) :
    IsCoprime r (p : Int) ∧ IsCoprime r (q : Int) := by
  have := Int.isCoprime_iff_gcd_eq_one.2 h
  push_cast at this
  exact ⟨this.of_mul_right_left, this.of_mul_right_right⟩

/-- **C86**.  With the draws uniform, the randomness that private-key encryption reports is uniform
over the units modulo `n`: every unit `r` comes from exactly one pair of draws; and the ciphertext is
the textbook encryption with that `r`. -/
theorem C86_uniform (cfg cfg' cfg'' : ExpCfg) (p q s : Nat) (hs : 1 ≤ s) (x : Int)
    (pk : PublicPaillier) (sk : PrivatePaillier) (w : PrivatePaillierWithRand)
    (hpk : PublicPaillier.new cfg x ((p * q : Nat) : Int) s = .ok pk)
    (hsk : PrivatePaillier.new cfg' p q s = .ok sk)
    (hw : PrivatePaillierWithRand.new cfg'' sk = .ok w)
    (m : Int) (m0 : 0 ≤ m) (m1 : m < ((p * q : Nat) : Int) ^ s) (r : Int) (r0 : 0 ≤ r)
    (r1 : r < ((p * q : Nat) : Int)) (hr : Int.gcd r ((p * q : Nat) : Int) = 1) :
    ∃ rp rq c : Int, (1 ≤ rp ∧ rp < p ∧ 1 ≤ rq ∧ rq < q) ∧
      w.encryptAndGetRand m rp rq = .ok (c, r) ∧ sk.encrypt m rp rq = .ok c ∧
      pk.encryptWithRand m r = .ok c ∧
      ∀ rp' rq' c' : Int, 1 ≤ rp' → rp' < p → 1 ≤ rq' → rq' < q →
        w.encryptAndGetRand m rp' rq' = .ok (c', r) → rp' = rp ∧ rq' = rq := by
  have S := PrivatePaillier.new_good hs hsk
  obtain ⟨⟨a1, a2⟩, b1, b2⟩ := PrivatePaillier.generators hs hsk
  obtain ⟨cop, coq⟩ := coprime_parts hr
  obtain ⟨Ep, Up⟩ := primitive_root S.gp.prime S.gp.gt3 S.gp.odd S.gp.half S.gp.gco a1 a2
  obtain ⟨Eq, Uq⟩ := primitive_root S.gq.prime S.gq.gt3 S.gq.odd S.gq.half S.gq.gco b1 b2
  have ppos : (0 : Int) < p := by have := S.pos; omega
  have qpos : (0 : Int) < q := by have := S.pos; omega
  -- what the reported randomness is
  have rep : ∀ rp rq : Int, 0 ≤ rp → 0 ≤ rq → ∃ c r', w.encryptAndGetRand m rp rq = .ok (c, r') ∧
      sk.encrypt m rp rq = .ok c ∧ 0 ≤ r' ∧ r' < ((p * q : Nat) : Int) ∧
      r' ≡ sk.pCrypto.gP ^ rp.toNat [ZMOD (p : Int)] ∧
      r' ≡ sk.qCrypto.gP ^ rq.toNat [ZMOD (q : Int)] := by
    intro rp rq hp hq
    have hw' := hw
    unfold PrivatePaillierWithRand.new at hw'
    simp only [Res.bind_eq_ok, Res.pure_eq, Res.ok.injEq] at hw'
    obtain ⟨crt, hcrt, pe, hpe, qe, hqe, rfl⟩ := hw'
    rw [S.gp.hs, S.gp.powers _ (le_refl _)] at hpe
    rw [S.gq.hs, S.gq.powers _ (le_refl _)] at hqe
    rw [S.gp.powers 1 (by omega), S.gq.powers 1 (by omega)] at hcrt
    have f1 := FixedBaseExp.modExp_spec (pow_pos ppos _) hpe hp
    have f2 := FixedBaseExp.modExp_spec (pow_pos qpos _) hqe hq
    obtain ⟨M, rfl⟩ := Int.eq_ofNat_of_zero_le m0
    obtain ⟨cp, cq, c', e1, e2, e3, c0, c1, c2, c3⟩ := PrivatePaillier.parts_spec S M hp hq
    obtain ⟨r', hr', r0, r1, r2, r3, -⟩ := crt_result S.pos.1 S.pos.2 S.coprime hcrt
      (sk.pCrypto.gP ^ rp.toNat % (p : Int) ^ (s + 1))
      (sk.qCrypto.gP ^ rq.toNat % (q : Int) ^ (s + 1))
    rw [pow_one] at r1 r2 r3
    refine ⟨c', r', ?_, ?_, r0, r1, r2.trans ?_, r3.trans ?_⟩
    · unfold PrivatePaillierWithRand.encryptAndGetRand
      simp only [show ¬ ((M : Int) < 0) by omega, if_false, S.hns,
        show ¬ (((p * q : Nat) : Int) ^ s ≤ (M : Int)) by omega, e1, e2, e3, f1, f2, hr', Res.ok_bind,
        Res.pure_eq]
    · unfold PrivatePaillier.encrypt
      rw [if_neg (by omega), S.hns, if_neg (by omega), e1]
      simp only [Res.ok_bind, e2, e3]
    · exact DJ.modEq_of_dvd' (DJ.emod_modEq _ _) (dvd_pow_self _ (by omega))
    · exact DJ.modEq_of_dvd' (DJ.emod_modEq _ _) (dvd_pow_self _ (by omega))
  obtain ⟨ep, p1, p2, p3⟩ := Ep r cop
  obtain ⟨eq, q1, q2, q3⟩ := Eq r coq
  obtain ⟨c, r', h1, h2, h3, h4, h5, h6⟩ := rep ep eq (by omega) (by omega)
  rw [Int.toNat_natCast] at h5 h6
  have hrr : r' = r := by
    have t1 : r' ≡ r [ZMOD (p : Int)] := h5.trans p3
    have t2 : r' ≡ r [ZMOD (q : Int)] := h6.trans q3
    have : r' ≡ r [ZMOD ((p * q : Nat) : Int)] := by
      push_cast
      exact (Int.modEq_and_modEq_iff_modEq_mul
        (Int.isCoprime_iff_gcd_eq_one.1 S.coprime)).1 ⟨t1, t2⟩
    have := this
    unfold Int.ModEq at this
    rwa [Int.emod_eq_of_lt h3 h4, Int.emod_eq_of_lt r0 r1] at this
  subst hrr
  refine ⟨ep, eq, c, ⟨by omega, by omega, by omega, by omega⟩, h1, h2,
    C14_randomness_reproduces cfg cfg' cfg'' p q s hs x pk sk w hpk hsk hw m _ _ c r' (by omega)
      (by omega) h1, ?_⟩
  intro rp' rq' c' hp1 hp2 hq1 hq2 h'
  obtain ⟨c2, r2, g1, -, -, -, g5, g6⟩ := rep rp' rq' (by omega) (by omega)
  rw [h'] at g1
  cases g1
  have u1 := Up 1 (by simp) rp'.toNat ep (by omega) (by omega) p1 p2 (by
    rw [mul_one, mul_one]; exact g5.symm.trans h5)
  have u2 := Uq 1 (by simp) rq'.toNat eq (by omega) (by omega) q1 q2 (by
    rw [mul_one, mul_one]; exact g6.symm.trans h6)
  omega

/-- **C86**, for the ciphertexts themselves: if moreover neither prime divides the other minus one
(true for two primes of the same length), then the ciphertexts are uniform too: every textbook
encryption of `m` comes from exactly one pair of draws. -/
theorem C86_ciphertext_uniform (cfg cfg' : ExpCfg) (p q s : Nat) (hs : 1 ≤ s) (x : Int)
    (pk : PublicPaillier) (sk : PrivatePaillier)
    (hpk : PublicPaillier.new cfg x ((p * q : Nat) : Int) s = .ok pk)
    (hsk : PrivatePaillier.new cfg' p q s = .ok sk) (hqp : ¬ q ∣ p - 1) (hpq : ¬ p ∣ q - 1)
    (m : Int) (m0 : 0 ≤ m) (m1 : m < ((p * q : Nat) : Int) ^ s) (r : Int)
    (hr : Int.gcd r ((p * q : Nat) : Int) = 1) :
    ∃ rp rq : Int, (1 ≤ rp ∧ rp < p ∧ 1 ≤ rq ∧ rq < q) ∧
      sk.encrypt m rp rq = pk.encryptWithRand m r ∧
      ∀ rp' rq' : Int, 1 ≤ rp' → rp' < p → 1 ≤ rq' → rq' < q →
        sk.encrypt m rp' rq' = pk.encryptWithRand m r → rp' = rp ∧ rq' = rq := by
  have G := PublicPaillier.new_good hpk
  have S := PrivatePaillier.new_good hs hsk
  obtain ⟨⟨a1, a2⟩, b1, b2⟩ := PrivatePaillier.generators hs hsk
  obtain ⟨cop, coq⟩ := coprime_parts hr
  obtain ⟨Ep, Up⟩ := primitive_root S.gp.prime S.gp.gt3 S.gp.odd S.gp.half S.gp.gco a1 a2
  obtain ⟨Eq, Uq⟩ := primitive_root S.gq.prime S.gq.gt3 S.gq.odd S.gq.half S.gq.gco b1 b2
  have hN : (0 : Int) < ((p * q : Nat) : Int) := by have := G.npos; omega
  have hpos : (0 : Int) < ((p * q : Nat) : Int) ^ (s + 1) := pow_pos hN _
  obtain ⟨M, rfl⟩ := Int.eq_ofNat_of_zero_le m0
  obtain ⟨d, hd, hdm⟩ := PublicPaillier.encryptWithRand_spec G (M : Int) hr
  rw [hd]
  have hMm : ((M : Int) % ((p * q : Nat) : Int) ^ s).toNat = M := by
    rw [Int.emod_eq_of_lt (by omega) (by omega), Int.toNat_natCast]
  rw [hMm] at hdm
  have hdd := modEq_prime_parts ((DJ.emod_modEq d _).trans hdm)
  have encr : ∀ rp rq : Int, 0 ≤ rp → 0 ≤ rq → ∃ c, sk.encrypt (M : Int) rp rq = .ok c ∧ 0 ≤ c ∧
      c < ((p * q : Nat) : Int) ^ (s + 1) ∧
      c ≡ (1 + ((p * q : Nat) : Int)) ^ M * (sk.pCrypto.gP ^ rp.toNat) ^ (p * q) ^ s
        [ZMOD (p : Int) ^ (s + 1)] ∧
      c ≡ (1 + ((p * q : Nat) : Int)) ^ M * (sk.qCrypto.gP ^ rq.toNat) ^ (p * q) ^ s
        [ZMOD (q : Int) ^ (s + 1)] := by
    intro rp rq h1 h2
    obtain ⟨cp, cq, c', e1, e2, e3, c0, c1, c2, c3⟩ := PrivatePaillier.parts_spec S M h1 h2
    refine ⟨c', ?_, c0, c1, c2, c3⟩
    unfold PrivatePaillier.encrypt
    rw [if_neg (by omega), S.hns, if_neg (by omega), e1]
    simp only [Res.ok_bind, e2, e3]
  obtain ⟨ep, p1, p2, p3⟩ := Ep r cop
  obtain ⟨eq, q1, q2, q3⟩ := Eq r coq
  have unitp : IsCoprime ((1 + ((p * q : Nat) : Int)) ^ M) (p : Int) := by
    apply IsCoprime.pow_left
    have := (isCoprime_one_left (x := (p : Int))).add_mul_right_left (q : Int)
    rwa [show (1 : Int) + q * p = 1 + ((p * q : Nat) : Int) by push_cast; ring] at this
  have unitq : IsCoprime ((1 + ((p * q : Nat) : Int)) ^ M) (q : Int) := by
    apply IsCoprime.pow_left
    have := (isCoprime_one_left (x := (q : Int))).add_mul_right_left (p : Int)
    rwa [show (1 : Int) + p * q = 1 + ((p * q : Nat) : Int) by push_cast; ring] at this
  refine ⟨ep, eq, ⟨by omega, by omega, by omega, by omega⟩, ?_, ?_⟩
  · obtain ⟨c, hc, c0, c1, c2, c3⟩ := encr ep eq (by omega) (by omega)
    rw [Int.toNat_natCast] at c2 c3
    rw [hc]
    congr 1
    have t1 : c ≡ d % ((p * q : Nat) : Int) ^ (s + 1) [ZMOD (p : Int) ^ (s + 1)] :=
      c2.trans (((pow_lift p q s _ _ p3).mul_left _).trans hdd.1.symm)
    have t2 : c ≡ d % ((p * q : Nat) : Int) ^ (s + 1) [ZMOD (q : Int) ^ (s + 1)] := by
      have := pow_lift q p s _ _ q3
      rw [mul_comm q p] at this
      exact c3.trans ((this.mul_left _).trans hdd.2.symm)
    have t3 : c ≡ d % ((p * q : Nat) : Int) ^ (s + 1) [ZMOD ((p * q : Nat) : Int) ^ (s + 1)] := by
      have e : ((p * q : Nat) : Int) ^ (s + 1) = (p : Int) ^ (s + 1) * (q : Int) ^ (s + 1) := by
        push_cast; rw [mul_pow]
      rw [e] at t1 t2 ⊢
      exact (Int.modEq_and_modEq_iff_modEq_mul
        (Int.isCoprime_iff_gcd_eq_one.1 (S.coprime.pow))).1 ⟨t1, t2⟩
    unfold Int.ModEq at t3
    rwa [Int.emod_eq_of_lt c0 c1, Int.emod_emod] at t3
  · intro rp' rq' hp1 hp2 hq1 hq2 h'
    obtain ⟨c, hc, c0, c1, c2, c3⟩ := encr rp' rq' (by omega) (by omega)
    rw [hc] at h'
    cases h'
    have v1 : (sk.pCrypto.gP ^ rp'.toNat) ^ (p * q) ^ s ≡ r ^ (p * q) ^ s [ZMOD (p : Int)] :=
      DJ.cancel unitp (DJ.modEq_of_dvd' (c2.symm.trans hdd.1) (dvd_pow_self _ (by omega)))
    have v2 : (sk.qCrypto.gP ^ rq'.toNat) ^ (p * q) ^ s ≡ r ^ (p * q) ^ s [ZMOD (q : Int)] :=
      DJ.cancel unitq (DJ.modEq_of_dvd' (c3.symm.trans hdd.2) (dvd_pow_self _ (by omega)))
    have hcp : Nat.Coprime ((p * q) ^ s) (p - 1) := by
      apply Nat.Coprime.pow_left
      apply Nat.Coprime.mul_left
      · rw [S.gp.prime.coprime_iff_not_dvd]
        intro h
        have := Nat.le_of_dvd (by have := S.gp.gt3; omega) h
        have := S.gp.gt3
        omega
      · exact S.gq.prime.coprime_iff_not_dvd.2 hqp
    have hcq : Nat.Coprime ((p * q) ^ s) (q - 1) := by
      apply Nat.Coprime.pow_left
      apply Nat.Coprime.mul_left
      · exact S.gp.prime.coprime_iff_not_dvd.2 hpq
      · rw [S.gq.prime.coprime_iff_not_dvd]
        intro h
        have := Nat.le_of_dvd (by have := S.gq.gt3; omega) h
        have := S.gq.gt3
        omega
    have u1 := Up _ hcp rp'.toNat ep (by omega) (by omega) p1 p2 (by
      rw [pow_mul, pow_mul]; exact v1.trans (p3.symm.pow _))
    have u2 := Uq _ hcq rq'.toNat eq (by omega) (by omega) q1 q2 (by
      rw [pow_mul, pow_mul]; exact v2.trans (q3.symm.pow _))
    omega

/-- The hypotheses hold for 7 and 11, with the key objects of `C11_keys_exist`; the private key
then reaches, for instance, the encryption of 5 with randomness 2. -/
example : ∃ pk sk, PublicPaillier.new ⟨true, 64⟩ 1 ((7 * 11 : Nat) : Int) 2 = .ok pk ∧
    PrivatePaillier.new ⟨true, 64⟩ (7 : Nat) (11 : Nat) 2 = .ok sk ∧
    ∃ rp rq : Int, (1 ≤ rp ∧ rp < 7 ∧ 1 ≤ rq ∧ rq < 11) ∧
      sk.encrypt 5 rp rq = pk.encryptWithRand 5 2 := by
  obtain ⟨⟨pk, hpk⟩, sk, hsk, -⟩ := C11_keys_exist ⟨true, 64⟩ 7 11 2 1
    ⟨by norm_num, by norm_num, by norm_num⟩ ⟨by norm_num, by norm_num, by norm_num⟩ (by norm_num)
    (by norm_num) (by norm_num) ⟨3, by norm_num, by norm_num, by decide⟩
    ⟨2, by norm_num, by norm_num, by decide⟩ (by norm_num)
  obtain ⟨rp, rq, h1, h2, -⟩ := C86_ciphertext_uniform _ _ 7 11 2 (by norm_num) 1 pk sk hpk hsk
    (by norm_num) (by norm_num) 5 (by norm_num) (by norm_num) 2 (by decide)
  exact ⟨pk, sk, hpk, hsk, rp, rq, h1, h2⟩

end PJC.Props
