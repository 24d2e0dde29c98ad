import Mathlib.Tactic.NormNum.Prime
import Verif.Lemmas.PaillierKeys
/-
Properties C11-C14: the Paillier (Damgård–Jurik) cryptosystem.

Specification: with `n = p * q`, messages live in `[0, n^s)` and ciphertexts in `[0, n^(s+1))`.
All theorems hold for any parameter `s ≥ 1`, any pair `p`, `q` for which the constructors succeed
(`C11_keys_exist`: distinct safe primes above `s`), any setting `cfg` of the fixed-base
exponentiation flags, and all random draws.  `x` is the draw from which the public generator is
made; `RelativelyPrimeRandomLessThan(n)` guarantees that it is coprime to `n`.
-/
namespace PJC.Props
open PJC

/-- Specification of a safe prime. -/
def SafePrime (p : Nat) : Prop := p.Prime ∧ p % 2 = 1 ∧ (p / 2).Prime

/-- Specification of the condition under which the generator search of `PrimeCrypto` (1000
candidates from 2 on) finds something: a quadratic non-residue other than -1 below 1002. -/
def HasSmallGenerator (p : Nat) : Prop :=
  ∃ g : Nat, 2 ≤ g ∧ g < 1002 ∧ ¬ (g * g % p = 1 ∨ g ^ (p / 2) % p = 1)

/-- The constructors of all three key objects succeed on distinct safe primes above `s`. -/
theorem C11_keys_exist (cfg : ExpCfg) (p q s : Nat) (x : Int) (hp : SafePrime p)
    (hq : SafePrime q) (hpq : p ≠ q) (hsp : s < p) (hsq : s < q) (gp : HasSmallGenerator p)
    (gq : HasSmallGenerator q) (hs : 1 ≤ s) :
    (∃ pk, PublicPaillier.new cfg x ((p * q : Nat) : Int) s = .ok pk) ∧
    ∃ sk, PrivatePaillier.new cfg p q s = .ok sk ∧
      ∃ w, PrivatePaillierWithRand.new cfg sk = .ok w := by
  have hcop : Nat.Coprime p q := (Nat.coprime_primes hp.1 hq.1).2 hpq
  refine ⟨?_, ?_⟩
  · apply PublicPaillier.new_ok
    · exact Nat.one_lt_mul_iff.2 ⟨hp.1.pos, hq.1.pos, Or.inl hp.1.one_lt⟩
    · rw [Nat.mul_mod, hp.2.1, hq.2.1]
    · intro i h1 h2
      apply Nat.Coprime.mul_right
      · rw [Nat.coprime_comm, hp.1.coprime_iff_not_dvd]
        intro hd
        have := Nat.le_of_dvd (by omega) hd
        omega
      · rw [Nat.coprime_comm, hq.1.coprime_iff_not_dvd]
        intro hd
        have := Nat.le_of_dvd (by omega) hd
        omega
  · obtain ⟨pc, hpc⟩ := PrimeCrypto.new_ok cfg p q s hp.1 hp.2.1 hp.2.2 hcop.symm hsp gp
    obtain ⟨qc, hqc⟩ := PrimeCrypto.new_ok cfg q p s hq.1 hq.2.1 hq.2.2 hcop hsq gq
    have Gp := PrimeCrypto.new_good hs hpc
    have Gq := PrimeCrypto.new_good hs hqc
    have ppos : (0 : Int) < p := by have := hp.1.pos; omega
    have qpos : (0 : Int) < q := by have := hq.1.pos; omega
    have crt : ∀ e : Nat, ∃ c, Crt.new ((p : Int) ^ e) ((q : Int) ^ e) = .ok c := fun e => by
      obtain ⟨c, hc, _⟩ := C15_crt ((p : Int) ^ e) ((q : Int) ^ e) (pow_pos ppos _)
        (pow_pos qpos _) (Int.isCoprime_iff_gcd_eq_one.1 (Nat.isCoprime_iff_coprime.2 hcop).pow)
      exact ⟨c, hc⟩
    obtain ⟨c1, h1⟩ := crt (s + 1)
    obtain ⟨c2, h2⟩ := crt s
    obtain ⟨c3, h3⟩ := crt 1
    have hnew : PrivatePaillier.new cfg p q s = .ok ⟨((p : Int) * q) ^ s,
        ((p : Int) * q) ^ s * p * q, pc, qc, c1, c2⟩ := by
      unfold PrivatePaillier.new
      simp only [hpc, hqc, Res.ok_bind, Gp.powers _ (le_refl _), Gq.powers _ (le_refl _),
        Gp.powers s (by omega), Gq.powers s (by omega), h1, h2, Res.pure_eq]
    refine ⟨_, hnew, ?_⟩
    have fb : ∀ (P : Nat) (g : Int), 0 < g → g < 2 * P → 3 < P → P % 2 = 1 →
        ∃ f, FixedBaseExp.get cfg.flag cfg.radixBits g ((P : Int) ^ (s + 1)) = .ok f := by
      intro P g g0 g1 hP hodd
      apply FixedBaseExp.get_ok
      intro _
      refine ⟨one_lt_pow₀ (by omega) (by omega), ?_, g0.le, ?_⟩
      · have : (P : Int) % 2 = 1 := by omega
        have h2 := Int.ModEq.pow (s + 1) (show (P : Int) ≡ 1 [ZMOD 2] from this)
        rw [one_pow] at h2
        exact h2
      · have : (P : Int) ^ 2 ≤ (P : Int) ^ (s + 1) := pow_le_pow_right₀ (by omega) (by omega)
        nlinarith
    obtain ⟨f1, hf1⟩ := fb p pc.gP Gp.gpos Gp.glt Gp.gt3 Gp.odd
    obtain ⟨f2, hf2⟩ := fb q qc.gP Gq.gpos Gq.glt Gq.gt3 Gq.odd
    unfold PrivatePaillierWithRand.new
    simp only [Gp.powers 1 (by omega), Gq.powers 1 (by omega), h3, Res.ok_bind, Gp.hs, Gq.hs,
      Gp.powers _ (le_refl _), Gq.powers _ (le_refl _), hf1, hf2, Res.pure_eq]
    exact ⟨_, rfl⟩

/-- C11, public key: decryption inverts every encryption entry point of the public key. -/
theorem C11_public_round_trip (cfg cfg' : ExpCfg) (p q s : Nat) (hs : 1 ≤ s) (x : Int)
    (hx : Int.gcd x ((p * q : Nat) : Int) = 1) (pk : PublicPaillier) (sk : PrivatePaillier)
    (hpk : PublicPaillier.new cfg x ((p * q : Nat) : Int) s = .ok pk)
    (hsk : PrivatePaillier.new cfg' p q s = .ok sk)
    (m : Int) (h0 : 0 ≤ m) (h1 : m < ((p * q : Nat) : Int) ^ s) :
    (∀ r, 0 ≤ r → r < ((p * q : Nat) : Int) →
      ∃ c, pk.encrypt m r = .ok c ∧ sk.decrypt c = .ok m) ∧
    (∀ r, 0 ≤ r → r ≤ ((p * q : Nat) : Int) →
      ∃ c, pk.encryptUsingGeneratorAndRand m r = .ok c ∧ sk.decrypt c = .ok m) ∧
    (∀ r, Int.gcd r ((p * q : Nat) : Int) = 1 →
      ∃ c, pk.encryptWithRand m r = .ok c ∧ sk.decrypt c = .ok m) ∧
    (∀ r, Int.gcd r ((p * q : Nat) : Int) = 1 →
      ∃ c, pk.encryptAndGetRand m r = .ok (c, r) ∧ sk.decrypt c = .ok m) := by
  have G := PublicPaillier.new_good hpk
  have S := PrivatePaillier.new_good hs hsk
  have hm : m % ((p * q : Nat) : Int) ^ s = m := Int.emod_eq_of_lt h0 h1
  have hgen : ∀ r, 0 ≤ r → r ≤ ((p * q : Nat) : Int) →
      ∃ c, pk.encryptUsingGeneratorAndRand m r = .ok c ∧ sk.decrypt c = .ok m := by
    intro r r0 r1
    obtain ⟨c, hc, hcm⟩ := PublicPaillier.encryptUsingGen_spec G m r0 r1
    refine ⟨_, hc, ?_⟩
    rw [PrivatePaillier.decrypt_spec S
      (CtN.of_modN G.npos (generator_coprime hx).pow_left hcm), hm]
  have hwr : ∀ r, Int.gcd r ((p * q : Nat) : Int) = 1 →
      ∃ c, pk.encryptWithRand m r = .ok c ∧ sk.decrypt c = .ok m := by
    intro r hr
    obtain ⟨c, hc, hcm⟩ := PublicPaillier.encryptWithRand_spec G m hr
    refine ⟨_, hc, ?_⟩
    rw [PrivatePaillier.decrypt_spec S
      (CtN.of_modN G.npos (Int.isCoprime_iff_gcd_eq_one.2 hr) hcm), hm]
  refine ⟨fun r r0 r1 => ?_, hgen, hwr, fun r hr => ?_⟩
  · obtain ⟨c, hc, hd⟩ := hgen r r0 (by omega)
    refine ⟨c, ?_, hd⟩
    unfold PublicPaillier.encrypt
    rw [if_neg (by omega), G.hs, G.powers s (by omega), if_neg (by omega), hc]
  · obtain ⟨c, hc, hd⟩ := hwr r hr
    exact ⟨c, by simp [PublicPaillier.encryptAndGetRand, hc], hd⟩

/-- C11, private key: decryption inverts the encryption entry points of the private key
objects, for any non-negative draws. -/
theorem C11_private_round_trip (cfg cfg' : ExpCfg) (p q s : Nat) (hs : 1 ≤ s)
    (sk : PrivatePaillier) (w : PrivatePaillierWithRand)
    (hsk : PrivatePaillier.new cfg p q s = .ok sk)
    (hw : PrivatePaillierWithRand.new cfg' sk = .ok w)
    (m rp rq : Int) (h0 : 0 ≤ m) (h1 : m < ((p * q : Nat) : Int) ^ s) (hp : 0 ≤ rp)
    (hq : 0 ≤ rq) :
    (∃ c, sk.encrypt m rp rq = .ok c ∧ sk.decrypt c = .ok m) ∧
    (∃ c r, w.encryptAndGetRand m rp rq = .ok (c, r) ∧ sk.decrypt c = .ok m) := by
  have S := PrivatePaillier.new_good hs hsk
  obtain ⟨M, rfl⟩ := Int.eq_ofNat_of_zero_le h0
  obtain ⟨cp, cq, c, e1, e2, e3, c0, c1, c2, c3⟩ := PrivatePaillier.parts_spec S M hp hq
  have hdec : sk.decrypt c = .ok (M : Int) := by
    rw [PrivatePaillier.decrypt_spec S (CtN.of_parts c0 c1 S.gp.gco.pow_left S.gq.gco.pow_left c2 c3),
      Int.emod_eq_of_lt h0 h1]
  refine ⟨⟨c, ?_, hdec⟩, ?_⟩
  · unfold PrivatePaillier.encrypt
    rw [if_neg (by omega), S.hns, if_neg (by omega), e1]
    simp only [Res.ok_bind, e2, e3]
  · unfold PrivatePaillierWithRand.new at hw
    simp only [Res.bind_eq_ok, Res.pure_eq, Res.ok.injEq] at hw
    obtain ⟨crt, hcrt, pe, hpe, qe, hqe, rfl⟩ := hw
    have ppos : (0 : Int) < p := by have := S.pos; omega
    have qpos : (0 : Int) < q := by have := S.pos; omega
    rw [S.gp.hs, S.gp.powers _ (le_refl _)] at hpe
    rw [S.gq.hs, S.gq.powers _ (le_refl _)] at hqe
    rw [S.gp.powers 1 (by omega), S.gq.powers 1 (by omega)] at hcrt
    have f1 := FixedBaseExp.modExp_spec (pow_pos ppos _) hpe hp
    have f2 := FixedBaseExp.modExp_spec (pow_pos qpos _) hqe hq
    obtain ⟨r, hr, -⟩ := crt_result S.pos.1 S.pos.2 S.coprime hcrt
      (sk.pCrypto.gP ^ rp.toNat % (p : Int) ^ (s + 1))
      (sk.qCrypto.gP ^ rq.toNat % (q : Int) ^ (s + 1))
    refine ⟨c, r, ?_, hdec⟩
    unfold PrivatePaillierWithRand.encryptAndGetRand
    simp only [show ¬ ((M : Int) < 0) by omega, if_false, S.hns,
      show ¬ (((p * q : Nat) : Int) ^ s ≤ (M : Int)) by omega, e1, e2, e3, f1, f2, hr, Res.ok_bind,
      Res.pure_eq]

/-! ### C12 -/

/-- Histories of API calls: `Made pk sk w m c` says that ciphertext `c` was produced by some
finite sequence of encryptions (by either key) and homomorphic operations, all of which returned
normally, and that the same operations on the integers give `m`. -/
inductive Made (pk : PublicPaillier) (sk : PrivatePaillier) : Int → Int → Prop
  | encrypt {m r c} : 0 ≤ r → pk.encrypt m r = .ok c → Made pk sk m c
  | encryptUsingGeneratorAndRand {m r c} : 0 ≤ r → pk.encryptUsingGeneratorAndRand m r = .ok c →
      Made pk sk m c
  | encryptWithRand {m r c} : pk.encryptWithRand m r = .ok c → Made pk sk m c
  | privateEncrypt {m rp rq c} : 0 ≤ rp → 0 ≤ rq → sk.encrypt m rp rq = .ok c → Made pk sk m c
  | add {m1 m2 c1 c2} : Made pk sk m1 c1 → Made pk sk m2 c2 →
      Made pk sk (m1 + m2) (pk.add c1 c2)
  | multiply {m c k c'} : Made pk sk m c → pk.multiply c k = .ok c' → Made pk sk (m * k) c'
  | leftShift {m c} {k : Nat} {c'} : Made pk sk m c → pk.leftShift c k = .ok c' →
      Made pk sk (m * 2 ^ k) c'

theorem made_ct {cfg cfg' : ExpCfg} {p q s : Nat} {x : Int}
    (hx : Int.gcd x ((p * q : Nat) : Int) = 1) {pk : PublicPaillier} {sk : PrivatePaillier}
    (G : pk.Good cfg x (p * q) s) (S : sk.Good cfg' p q s) {m c : Int} (h : Made pk sk m c) :
    CtN p q s m c := by
  have hpos : (0 : Int) < ((p * q : Nat) : Int) ^ (s + 1) := pow_pos (by have := G.npos; omega) _
  have hgen : ∀ {m r c}, 0 ≤ r → pk.encryptUsingGeneratorAndRand m r = .ok c →
      CtN p q s m c := by
    intro m r c h0 h
    have hr1 : r ≤ ((p * q : Nat) : Int) := by
      unfold PublicPaillier.encryptUsingGeneratorAndRand at h
      split at h
      · cases h
      · rename_i hr; rw [G.hn] at hr; omega
    obtain ⟨c', e, hcm⟩ := PublicPaillier.encryptUsingGen_spec G m h0 hr1
    rw [e] at h
    cases h
    exact CtN.of_modN G.npos (generator_coprime hx).pow_left hcm
  have hmul : ∀ {m c k c'}, CtN p q s m c → pk.multiply c k = .ok c' →
      0 ≤ k ∧ CtN p q s (m * k) c' := by
    intro m c k c' hc h
    unfold PublicPaillier.multiply BN.modExp at h
    rw [G.hmod] at h
    split at h
    · cases h
    rename_i hk
    rw [if_neg (ne_of_gt hpos)] at h
    cases h
    obtain ⟨K, rfl⟩ := Int.eq_ofNat_of_zero_le (show 0 ≤ k by omega)
    have hcg := modEq_prime_parts (DJ.emod_modEq (c ^ K) (((p * q : Nat) : Int) ^ (s + 1)))
    refine ⟨by omega, Int.emod_nonneg _ (ne_of_gt hpos), Int.emod_lt_of_pos _ hpos, ?_, ?_⟩
    · exact (hc.modP.pow K).congr hcg.1
    · exact (hc.modQ.pow K).congr hcg.2
  induction h with
  | encrypt h0 h =>
    unfold PublicPaillier.encrypt at h
    split at h
    · cases h
    split at h
    · cases h
    exact hgen h0 h
  | encryptUsingGeneratorAndRand h0 h => exact hgen h0 h
  | @encryptWithRand m r c h =>
    have hr : Int.gcd r ((p * q : Nat) : Int) = 1 := by
      unfold PublicPaillier.encryptWithRand at h
      split at h
      · cases h
      · rename_i hr; rw [G.hn] at hr; simpa using hr
    obtain ⟨c', e, hcm⟩ := PublicPaillier.encryptWithRand_spec G m hr
    rw [e] at h
    cases h
    exact CtN.of_modN G.npos (Int.isCoprime_iff_gcd_eq_one.2 hr) hcm
  | @privateEncrypt m rp rq c hp hq h =>
    unfold PrivatePaillier.encrypt at h
    split at h
    · cases h
    rename_i hm
    split at h
    · cases h
    obtain ⟨M, rfl⟩ := Int.eq_ofNat_of_zero_le (show 0 ≤ m by omega)
    obtain ⟨cp, cq, c', e1, e2, e3, c0, c1, c2, c3⟩ := PrivatePaillier.parts_spec S M hp hq
    rw [e1] at h
    simp only [Res.ok_bind, e2, e3] at h
    cases h
    exact CtN.of_parts c0 c1 S.gp.gco.pow_left S.gq.gco.pow_left c2 c3
  | @add m1 m2 c1 c2 _ _ i1 i2 =>
    unfold PublicPaillier.add
    rw [G.hmod]
    have hcg := modEq_prime_parts (DJ.emod_modEq (c1 * c2) (((p * q : Nat) : Int) ^ (s + 1)))
    exact ⟨Int.emod_nonneg _ (ne_of_gt hpos), Int.emod_lt_of_pos _ hpos,
      (i1.modP.mul i2.modP).congr hcg.1, (i1.modQ.mul i2.modQ).congr hcg.2⟩
  | multiply _ h i => exact (hmul i h).2
  | @leftShift m c k c' _ h i =>
    unfold PublicPaillier.leftShift at h
    simp only [BN.lshift, Res.bind_eq_ok] at h
    obtain ⟨v, hv, h⟩ := h
    split at hv
    · omega
    · cases hv
      have := (hmul i h).2
      simpa using this

/-- C12: whatever finite combination of encryptions and homomorphic operations produced a
ciphertext, it decrypts to the result of the same operations on integers, reduced mod `n^s`. -/
theorem C12_homomorphic (cfg cfg' : ExpCfg) (p q s : Nat) (hs : 1 ≤ s) (x : Int)
    (hx : Int.gcd x ((p * q : Nat) : Int) = 1) (pk : PublicPaillier) (sk : PrivatePaillier)
    (hpk : PublicPaillier.new cfg x ((p * q : Nat) : Int) s = .ok pk)
    (hsk : PrivatePaillier.new cfg' p q s = .ok sk) (m c : Int) (h : Made pk sk m c) :
    sk.decrypt c = .ok (m % ((p * q : Nat) : Int) ^ s) :=
  PrivatePaillier.decrypt_spec (PrivatePaillier.new_good hs hsk)
    (made_ct hx (PublicPaillier.new_good hpk) (PrivatePaillier.new_good hs hsk) h)

/-- C12: the homomorphic operations return normally on all ciphertexts and all non-negative
multipliers and shifts, so the histories of `C12_homomorphic` can always be extended. -/
theorem C12_operations_total (cfg : ExpCfg) (n s : Nat) (x : Int) (pk : PublicPaillier)
    (hpk : PublicPaillier.new cfg x (n : Int) s = .ok pk) (c : Int) :
    (∀ k, 0 ≤ k → ∃ c', pk.multiply c k = .ok c') ∧
    (∀ k : Nat, ∃ c', pk.leftShift c k = .ok c') := by
  have G := PublicPaillier.new_good hpk
  have hpos : (0 : Int) < (n : Int) ^ (s + 1) := pow_pos (by have := G.npos; omega) _
  have h1 : ∀ k, 0 ≤ k → ∃ c', pk.multiply c k = .ok c' := by
    intro k hk
    unfold PublicPaillier.multiply BN.modExp
    rw [G.hmod, if_neg (by omega), if_neg (ne_of_gt hpos)]
    exact ⟨_, rfl⟩
  refine ⟨h1, fun k => ?_⟩
  unfold PublicPaillier.leftShift BN.lshift
  rw [if_neg (by omega)]
  simp only [Res.ok_bind]
  exact h1 _ (by positivity)

/-! ### C13 -/

/-- C13: `Encrypt` (public and private) refuses exactly the messages outside `[0, n^s)`, with
`INVALID_ARGUMENT`, and `Decrypt` refuses exactly the ciphertexts outside `[0, n^(s+1))`. -/
theorem C13_validation (cfg cfg' : ExpCfg) (p q s : Nat) (hs : 1 ≤ s) (x : Int)
    (pk : PublicPaillier) (sk : PrivatePaillier)
    (hpk : PublicPaillier.new cfg x ((p * q : Nat) : Int) s = .ok pk)
    (hsk : PrivatePaillier.new cfg' p q s = .ok sk) :
    (∀ m r, 0 ≤ r → r < ((p * q : Nat) : Int) →
      if 0 ≤ m ∧ m < ((p * q : Nat) : Int) ^ s then ∃ c, pk.encrypt m r = .ok c
      else pk.encrypt m r = .err .invalidArgument) ∧
    (∀ m rp rq, 0 ≤ rp → 0 ≤ rq →
      if 0 ≤ m ∧ m < ((p * q : Nat) : Int) ^ s then ∃ c, sk.encrypt m rp rq = .ok c
      else sk.encrypt m rp rq = .err .invalidArgument) ∧
    (∀ c, sk.decrypt c = .err .invalidArgument ↔
      ¬ (0 ≤ c ∧ c < ((p * q : Nat) : Int) ^ (s + 1))) := by
  have G := PublicPaillier.new_good hpk
  have S := PrivatePaillier.new_good hs hsk
  refine ⟨fun m r r0 r1 => ?_, fun m rp rq hp hq => ?_, fun c => ?_⟩
  · split
    · rename_i h
      obtain ⟨c, hc, -⟩ := PublicPaillier.encryptUsingGen_spec G m r0 (by omega)
      refine ⟨c % ((p * q : Nat) : Int) ^ (s + 1), ?_⟩
      · unfold PublicPaillier.encrypt
        rw [if_neg (by omega), G.hs, G.powers s (by omega), if_neg (by omega), hc]
    · rename_i h
      unfold PublicPaillier.encrypt
      rw [G.hs, G.powers s (by omega)]
      split
      · rfl
      · rw [if_pos (by omega)]
  · split
    · rename_i h
      obtain ⟨M, rfl⟩ := Int.eq_ofNat_of_zero_le h.1
      obtain ⟨cp, cq, c, e1, e2, e3, -⟩ := PrivatePaillier.parts_spec S M hp hq
      refine ⟨c, ?_⟩
      unfold PrivatePaillier.encrypt
      rw [if_neg (by omega), S.hns, if_neg (by omega), e1]
      simp only [Res.ok_bind, e2, e3]
    · rename_i h
      unfold PrivatePaillier.encrypt
      rw [S.hns]
      split
      · rfl
      · rw [if_pos (by omega)]
  · unfold PrivatePaillier.decrypt
    rw [S.hns1]
    by_cases h0 : c < 0
    · simp [h0]
    by_cases h1 : ((p * q : Nat) : Int) ^ (s + 1) ≤ c
    · rw [if_neg h0, if_pos h1]
      simp only [true_iff]
      omega
    rw [if_neg h0, if_neg h1]
    constructor
    · intro h
      exfalso
      -- in range, the outcome is a value or an abort, never an error
      by_cases hp : IsCoprime c (p : Int)
      · obtain ⟨r, hr⟩ := PrimeCrypto.decrypt_unit S.gp hp
        rw [hr] at h
        simp only [Res.ok_bind] at h
        by_cases hq : IsCoprime c (q : Int)
        · obtain ⟨r', hr'⟩ := PrimeCrypto.decrypt_unit S.gq hq
          rw [hr'] at h
          simp only [Res.ok_bind] at h
          obtain ⟨x, hx, -⟩ := crt_result S.pos.1 S.pos.2 S.coprime S.dec r r'
          rw [hx] at h
          cases h
        · rw [PrimeCrypto.decrypt_nonunit S.gq] at h
          · cases h
          · by_contra hd
            exact hq ((Nat.Prime.coprime_iff_not_dvd' S.gq.prime).2 hd)
      · rw [PrimeCrypto.decrypt_nonunit S.gp] at h
        · cases h
        · by_contra hd
          exact hp ((Nat.Prime.coprime_iff_not_dvd' S.gp.prime).2 hd)
    · intro h; omega

/-- C13, behaviour inside the accepted range: `Decrypt` returns a message in `[0, n^s)` for every
ciphertext coprime to `n` (honest or not), and aborts the process for every other one; no
in-range ciphertext gives an error status. -/
theorem C13_decrypt_in_range (cfg : ExpCfg) (p q s : Nat) (hs : 1 ≤ s) (sk : PrivatePaillier)
    (hsk : PrivatePaillier.new cfg p q s = .ok sk) (c : Int) (h0 : 0 ≤ c)
    (h1 : c < ((p * q : Nat) : Int) ^ (s + 1)) :
    (Int.gcd c ((p * q : Nat) : Int) = 1 →
      ∃ m, sk.decrypt c = .ok m ∧ 0 ≤ m ∧ m < ((p * q : Nat) : Int) ^ s) ∧
    (Int.gcd c ((p * q : Nat) : Int) ≠ 1 → sk.decrypt c = .crash) := by
  have S := PrivatePaillier.new_good hs hsk
  unfold PrivatePaillier.decrypt
  rw [S.hns1, if_neg (by omega), if_neg (by omega)]
  constructor
  · intro hg
    have hc := Int.isCoprime_iff_gcd_eq_one.2 hg
    push_cast at hc
    obtain ⟨r, hr⟩ := PrimeCrypto.decrypt_unit S.gp hc.of_mul_right_left
    obtain ⟨r', hr'⟩ := PrimeCrypto.decrypt_unit S.gq hc.of_mul_right_right
    obtain ⟨x, hx, x0, x1, -⟩ := crt_result S.pos.1 S.pos.2 S.coprime S.dec r r'
    refine ⟨x, ?_, x0, x1⟩
    rw [hr]
    simp only [Res.ok_bind, hr', hx]
  · intro hg
    by_cases hp : IsCoprime c (p : Int)
    · obtain ⟨r, hr⟩ := PrimeCrypto.decrypt_unit S.gp hp
      rw [hr]
      simp only [Res.ok_bind]
      rw [PrimeCrypto.decrypt_nonunit S.gq]
      · rfl
      · by_contra hd
        apply hg
        have hq := (Nat.Prime.coprime_iff_not_dvd' S.gq.prime).2 hd
        apply Int.isCoprime_iff_gcd_eq_one.1
        push_cast
        exact hp.mul_right hq
    · rw [PrimeCrypto.decrypt_nonunit S.gp]
      · rfl
      · by_contra hd
        exact hp ((Nat.Prime.coprime_iff_not_dvd' S.gp.prime).2 hd)

/-! ### C14 -/

/-- C14: the randomness reported by the private key's `EncryptAndGetRand` reproduces the very
same ciphertext through the public key's `EncryptWithRand`. -/
theorem C14_randomness_reproduces (cfg cfg' cfg'' : ExpCfg) (p q s : Nat) (hs : 1 ≤ s) (x : Int)
    (pk : PublicPaillier) (sk : PrivatePaillier) (w : PrivatePaillierWithRand)
    (hpk : PublicPaillier.new cfg x ((p * q : Nat) : Int) s = .ok pk)
    (hsk : PrivatePaillier.new cfg' p q s = .ok sk)
    (hw : PrivatePaillierWithRand.new cfg'' sk = .ok w)
    (m rp rq c r : Int) (hp : 0 ≤ rp) (hq : 0 ≤ rq)
    (h : w.encryptAndGetRand m rp rq = .ok (c, r)) :
    pk.encryptWithRand m r = .ok c := by
  have G := PublicPaillier.new_good hpk
  have S := PrivatePaillier.new_good hs hsk
  have ppos : (0 : Int) < p := by have := S.pos; omega
  have qpos : (0 : Int) < q := by have := S.pos; omega
  unfold PrivatePaillierWithRand.new at hw
  simp only [Res.bind_eq_ok, Res.pure_eq, Res.ok.injEq] at hw
  obtain ⟨crt, hcrt, pe, hpe, qe, hqe, rfl⟩ := hw
  rw [S.gp.hs, S.gp.powers _ (le_refl _)] at hpe
  rw [S.gq.hs, S.gq.powers _ (le_refl _)] at hqe
  rw [S.gp.powers 1 (by omega), S.gq.powers 1 (by omega)] at hcrt
  have f1 := FixedBaseExp.modExp_spec (pow_pos ppos _) hpe hp
  have f2 := FixedBaseExp.modExp_spec (pow_pos qpos _) hqe hq
  unfold PrivatePaillierWithRand.encryptAndGetRand at h
  split at h
  · cases h
  rename_i hm
  split at h
  · cases h
  rename_i hm2
  simp only [S.hns] at hm2
  obtain ⟨M, rfl⟩ := Int.eq_ofNat_of_zero_le (show 0 ≤ m by omega)
  obtain ⟨cp, cq, c', e1, e2, e3, c0, c1, c2, c3⟩ := PrivatePaillier.parts_spec S M hp hq
  obtain ⟨r', hr, r0, r1, r2, r3, -⟩ := crt_result S.pos.1 S.pos.2 S.coprime hcrt
    (sk.pCrypto.gP ^ rp.toNat % (p : Int) ^ (s + 1))
    (sk.qCrypto.gP ^ rq.toNat % (q : Int) ^ (s + 1))
  simp only [e1, f1, e2, f2, e3, hr, Res.ok_bind, Res.pure_eq, Res.ok.injEq, Prod.mk.injEq] at h
  obtain ⟨rfl, rfl⟩ := h
  -- r is congruent to the two generators' powers modulo the primes
  rw [pow_one] at r2 r3
  have rp' : r' ≡ sk.pCrypto.gP ^ rp.toNat [ZMOD (p : Int)] :=
    r2.trans (DJ.modEq_of_dvd' (DJ.emod_modEq _ _) (dvd_pow_self _ (by omega)))
  have rq' : r' ≡ sk.qCrypto.gP ^ rq.toNat [ZMOD (q : Int)] :=
    r3.trans (DJ.modEq_of_dvd' (DJ.emod_modEq _ _) (dvd_pow_self _ (by omega)))
  have lift : ∀ (a b : Nat) (u v : Int), u ≡ v [ZMOD (a : Int)] →
      u ^ (a * b) ^ s ≡ v ^ (a * b) ^ s [ZMOD (a : Int) ^ (s + 1)] := by
    intro a b u v huv
    have h1 := dvd_sub_pow_of_dvd_sub (R := Int) (p := a) (a := v) (b := u)
      (by exact_mod_cast huv.dvd) s
    have h2 : u ^ a ^ s ≡ v ^ a ^ s [ZMOD (a : Int) ^ (s + 1)] := Int.modEq_iff_dvd.2 h1
    have h3 := h2.pow (b ^ s)
    rwa [← pow_mul, ← pow_mul, ← mul_pow] at h3
  have cop : Int.gcd r' ((p * q : Nat) : Int) = 1 := by
    apply Int.isCoprime_iff_gcd_eq_one.1
    push_cast
    apply IsCoprime.mul_right
    · exact DJ.isCoprime_of_modEq rp'.symm S.gp.gco.pow_left
    · exact DJ.isCoprime_of_modEq rq'.symm S.gq.gco.pow_left
  obtain ⟨d, hd, hdm⟩ := PublicPaillier.encryptWithRand_spec G (M : Int) cop
  rw [hd]
  have hpos : (0 : Int) < ((p * q : Nat) : Int) ^ (s + 1) := pow_pos (by have := G.npos; omega) _
  have hMm : ((M : Int) % ((p * q : Nat) : Int) ^ s).toNat = M := by
    rw [Int.emod_eq_of_lt (by omega) (by omega), Int.toNat_natCast]
  rw [hMm] at hdm
  have hdd := modEq_prime_parts ((DJ.emod_modEq d _).trans hdm)
  have t1 : d % ((p * q : Nat) : Int) ^ (s + 1) ≡ c' [ZMOD (p : Int) ^ (s + 1)] :=
    hdd.1.trans (((lift p q _ _ rp').mul_left _).trans c2.symm)
  have t2 : d % ((p * q : Nat) : Int) ^ (s + 1) ≡ c' [ZMOD (q : Int) ^ (s + 1)] := by
    refine hdd.2.trans (Int.ModEq.trans (Int.ModEq.mul_left _ ?_) c3.symm)
    have := lift q p _ _ rq'
    rwa [mul_comm q p] at this
  have hdvd : ((p : Int) ^ (s + 1) * (q : Int) ^ (s + 1)) ∣
      (c' - d % ((p * q : Nat) : Int) ^ (s + 1)) :=
    (S.coprime.pow).mul_dvd t1.dvd t2.dvd
  have e : (p : Int) ^ (s + 1) * (q : Int) ^ (s + 1) = ((p * q : Nat) : Int) ^ (s + 1) := by
    push_cast; exact (mul_pow _ _ _).symm
  rw [e] at hdvd
  have hfin : d % ((p * q : Nat) : Int) ^ (s + 1) ≡ c' [ZMOD ((p * q : Nat) : Int) ^ (s + 1)] :=
    Int.modEq_iff_dvd.2 hdvd
  unfold Int.ModEq at hfin
  rw [Int.emod_emod, Int.emod_eq_of_lt c0 c1] at hfin
  rw [hfin]

/-! ### Non-vacuity -/

/-- 23 and 47 are distinct safe primes with small generators. -/
example : SafePrime 23 ∧ SafePrime 47 ∧ HasSmallGenerator 23 ∧ HasSmallGenerator 47 := by
  refine ⟨⟨by norm_num, rfl, by norm_num⟩, ⟨by norm_num, rfl, by norm_num⟩,
    ⟨5, by decide, by decide, by decide⟩, ⟨5, by decide, by decide, by decide⟩⟩

/-- With these primes and `s = 2` all hypotheses of C11-C14 are met, and the conclusion of C12 for
a non-trivial history: `(m1 + m2) * 3 * 2^4` is decrypted modulo `n^2`. -/
example (cfg : ExpCfg) : ∃ pk sk w, PublicPaillier.new cfg 3 ((23 * 47 : Nat) : Int) 2 = .ok pk ∧
    PrivatePaillier.new cfg 23 47 2 = .ok sk ∧ PrivatePaillierWithRand.new cfg sk = .ok w ∧
    ∃ c, Made pk sk ((1168560 + 7) * 3 * 2 ^ 4) c ∧
      sk.decrypt c = .ok (((1168560 + 7) * 3 * 2 ^ 4) % ((23 * 47 : Nat) : Int) ^ 2) := by
  obtain ⟨⟨pk, hpk⟩, sk, hsk, w, hw⟩ := C11_keys_exist cfg 23 47 2 3
    ⟨by norm_num, rfl, by norm_num⟩ ⟨by norm_num, rfl, by norm_num⟩ (by decide) (by decide)
    (by decide) ⟨5, by decide, by decide, by decide⟩ ⟨5, by decide, by decide, by decide⟩
    (by decide)
  have hx : Int.gcd 3 ((23 * 47 : Nat) : Int) = 1 := by decide
  obtain ⟨h1, -⟩ := C11_public_round_trip cfg cfg 23 47 2 (by decide) 3 hx pk sk hpk hsk
    1168560 (by norm_num) (by norm_num)
  obtain ⟨c1, e1, -⟩ := h1 1080 (by norm_num) (by norm_num)
  obtain ⟨⟨c2, e2, -⟩, -⟩ := C11_private_round_trip cfg cfg 23 47 2 (by decide) sk w hsk hw
    7 5 46 (by norm_num) (by norm_num) (by norm_num) (by norm_num)
  obtain ⟨c3, e3⟩ := (C12_operations_total cfg (23 * 47) 2 3 pk hpk (pk.add c1 c2)).1 3 (by norm_num)
  obtain ⟨c4, e4⟩ := (C12_operations_total cfg (23 * 47) 2 3 pk hpk c3).2 4
  have hmade : Made pk sk ((1168560 + 7) * 3 * 2 ^ 4) c4 :=
    .leftShift (.multiply (.add (.encrypt (by norm_num) e1)
      (.privateEncrypt (by norm_num) (by norm_num) e2)) e3) e4
  exact ⟨pk, sk, w, hpk, hsk, hw, c4, hmade,
    C12_homomorphic cfg cfg 23 47 2 (by decide) 3 hx pk sk hpk hsk _ _ hmade⟩

end PJC.Props
