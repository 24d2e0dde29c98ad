import Verif.Lemmas.Paillier
import Verif.Props.Exp
namespace PJC
open PJC.DJ

theorem value_eq_ok {α : Type} {x : Res α} {y : α} (h : x.value = .ok y) : x = .ok y := by
  cases x with
  | ok v => simpa using h
  | err c => cases h
  | crash => cases h
  | ub => cases h

theorem _root_.Nat.Prime.coprime_iff_not_dvd' {p : Nat} (hp : p.Prime) {c : Int} :
    IsCoprime c (p : Int) ↔ ¬ (p : Int) ∣ c := by
  rw [isCoprime_comm, (Nat.prime_iff_prime_int.1 hp).coprime_iff_not_dvd]

theorem DJ.isCoprime_of_modEq {a b m : Int} (h : a ≡ b [ZMOD m]) (ha : IsCoprime a m) :
    IsCoprime b m := by
  obtain ⟨k, hk⟩ := h.dvd
  have : b = a + m * k := by linear_combination hk
  rw [this]
  exact ha.add_mul_left_left _

/-! ### Public key -/

/-- Facts established by a successful `PublicPaillier` construction. -/
structure PublicPaillier.Good (cfg : ExpCfg) (x : Int) (pk : PublicPaillier) (n s : Nat) :
    Prop where
  npos : 0 < n
  hn : pk.n = n
  hs : pk.s = s
  hmod : pk.modulus = (n : Int) ^ (s + 1)
  powers : ∀ i ≤ s + 1, pk.nPowers.getD i 0 = (n : Int) ^ i
  co : ∀ i : Nat, 1 ≤ i → i ≤ s → IsCoprime (i : Int) (n : Int)
  prelen : pk.precomp.length = s + 1
  pre : ∀ k ≤ s, (k.factorial : Int) * pk.precomp.getD k 0 ≡ (n : Int) ^ k
    [ZMOD (n : Int) ^ (s + 1)]
  fbe : FixedBaseExp.get cfg.flag cfg.radixBits
    (((n : Int) - x * x % n) ^ n ^ s % (n : Int) ^ (s + 1)) ((n : Int) ^ (s + 1)) = .ok pk.gnFbe

theorem PublicPaillier.new_good {cfg : ExpCfg} {x : Int} {n s : Nat} {pk : PublicPaillier}
    (h : PublicPaillier.new cfg x n s = .ok pk) : pk.Good cfg x n s := by
  unfold PublicPaillier.new at h
  split at h
  · cases h
  rename_i hn0
  have hpos : (0 : Int) < n := by omega
  have pw : ∀ i ≤ s + 1, (getPowers (n : Int) s).getD i 0 = (n : Int) ^ i :=
    fun i hi => getPowers_get _ _ _ hi
  have hlast : (getPowers (n : Int) s).getLastD 0 = (n : Int) ^ (s + 1) := getPowers_last _ _
  have hps1 : (0 : Int) < (n : Int) ^ (s + 1) := pow_pos hpos _
  simp only [hlast, pw s (by omega), Res.bind_eq_ok, Res.pure_eq, Res.ok.injEq] at h
  obtain ⟨base, hbase, fbe, hfbe, pre, hpre, rfl⟩ := h
  have hco : ∀ i : Nat, 1 ≤ i → i ≤ s → IsCoprime (i : Int) (n : Int) := by
    intro i h1 h2
    by_contra hcon
    have hgcd : Int.gcd (i : Int) ((n : Int) ^ (s + 1)) ≠ 1 := by
      intro hg1
      apply hcon
      have := Int.isCoprime_iff_gcd_eq_one.2 hg1
      exact (IsCoprime.pow_right_iff (by omega)).1 this
    have := getPrecomp_crash (n : Int) ((n : Int) ^ (s + 1)) s s 1 [1]
      ⟨i, h1, by omega, modInverse_value_crash hgcd⟩
    unfold getPrecomp at hpre
    rw [this] at hpre
    cases hpre
  have hgcds : ∀ k : Nat, 1 ≤ k → k ≤ s → Int.gcd (k : Int) ((n : Int) ^ (s + 1)) = 1 :=
    fun k h1 h2 => Int.isCoprime_iff_gcd_eq_one.1 ((hco k h1 h2).pow_right)
  obtain ⟨pre', hp1, hp2, hp3⟩ := getPrecomp_spec (n : Int) ((n : Int) ^ (s + 1)) s hps1 hgcds
  rw [hp1] at hpre
  obtain rfl : pre' = pre := by simpa using hpre
  have hb : base = ((n : Int) - x * x % n) ^ n ^ s % (n : Int) ^ (s + 1) := by
    unfold BN.modExp getGeneratorForSafeModulus at hbase
    have hnn : ¬ ((n : Int) ^ s < 0) := by
      have : (0 : Int) ≤ (n : Int) ^ s := by positivity
      omega
    simp only [hnn, if_false, ne_of_gt hps1, Res.ok.injEq] at hbase
    have : (n : Int) ^ s = ((n ^ s : Nat) : Int) := by push_cast; ring
    rw [← hbase, this, Int.toNat_natCast]
  rw [hb] at hfbe
  exact ⟨by omega, rfl, rfl, rfl, pw, hco, hp2, hp3, hfbe⟩

theorem PublicPaillier.new_ok (cfg : ExpCfg) (x : Int) (n s : Nat) (hn : 1 < n) (hodd : n % 2 = 1)
    (hco : ∀ i : Nat, 1 ≤ i → i ≤ s → Nat.Coprime i n) :
    ∃ pk, PublicPaillier.new cfg x n s = .ok pk := by
  have hpos : (0 : Int) < n := by omega
  have pw : ∀ i ≤ s + 1, (getPowers (n : Int) s).getD i 0 = (n : Int) ^ i :=
    fun i hi => getPowers_get _ _ _ hi
  have hlast : (getPowers (n : Int) s).getLastD 0 = (n : Int) ^ (s + 1) := getPowers_last _ _
  have hps1 : (0 : Int) < (n : Int) ^ (s + 1) := pow_pos hpos _
  have hgcds : ∀ k : Nat, 1 ≤ k → k ≤ s → Int.gcd (k : Int) ((n : Int) ^ (s + 1)) = 1 :=
    fun k h1 h2 => Int.isCoprime_iff_gcd_eq_one.1
      ((Nat.isCoprime_iff_coprime.2 (hco k h1 h2)).pow_right)
  obtain ⟨pre, hp1, _, _⟩ := getPrecomp_spec (n : Int) ((n : Int) ^ (s + 1)) s hps1 hgcds
  have hnn : ¬ ((n : Int) ^ s < 0) := by
    have : (0 : Int) ≤ (n : Int) ^ s := by positivity
    omega
  obtain ⟨f, hf⟩ := FixedBaseExp.get_ok (flag := cfg.flag) (k := cfg.radixBits)
    (base := (getGeneratorForSafeModulus n x) ^ ((n : Int) ^ s).toNat % (n : Int) ^ (s + 1))
    (m := (n : Int) ^ (s + 1))
    (fun _ => by
      refine ⟨?_, ?_, Int.emod_nonneg _ hps1.ne', Int.emod_lt_of_pos _ hps1⟩
      · exact one_lt_pow₀ (by omega) (by omega)
      · have : (n : Int) % 2 = 1 := by omega
        have h2 := Int.ModEq.pow (s + 1) (show (n : Int) ≡ 1 [ZMOD 2] from this)
        rw [one_pow] at h2
        exact h2)
  unfold PublicPaillier.new
  rw [if_neg (by omega)]
  simp only [hlast, pw s (by omega), BN.modExp, hnn, if_false, ne_of_gt hps1, Res.ok_bind, hf, hp1,
    Res.pure_eq]
  exact ⟨_, rfl⟩

/-- `(1+n)^m` as computed by the public key object. -/
theorem PublicPaillier.binom {cfg : ExpCfg} {x : Int} {n s : Nat} {pk : PublicPaillier}
    (g : pk.Good cfg x n s) (m : Int) :
    DJ.binomialExpansion pk.precomp pk.nPowers m ≡ (1 + (n : Int)) ^ (m % (n : Int) ^ s).toNat
      [ZMOD (n : Int) ^ (s + 1)] :=
  binomialExpansion_spec (n : Int) (n : Int) (by have := g.npos; omega) (dvd_refl _) s pk.precomp
    pk.nPowers g.prelen g.powers g.pre g.co m

theorem generator_coprime {n : Nat} {x : Int} (hx : Int.gcd x n = 1) :
    IsCoprime ((n : Int) - x * x % n) (n : Int) := by
  have h := Int.isCoprime_iff_gcd_eq_one.2 hx
  have h2 : IsCoprime (-(x * x)) (n : Int) := (h.mul_left h).neg_left
  have e : (n : Int) - x * x % n = -(x * x) + (n : Int) * (1 + x * x / n) := by
    have := Int.emod_add_mul_ediv (x * x) (n : Int)
    linear_combination -this
  rw [e]
  exact h2.add_mul_left_left _

/-! ### Ciphertexts over an integer plaintext -/

/-- `c` encrypts the integer `m` modulo `p^s`. -/
def CtI (p n s : Nat) (m : Int) (c : Int) : Prop :=
  ∃ M : Nat, (M : Int) ≡ m [ZMOD (p : Int) ^ s] ∧ CtMod p n s M c

theorem CtI.mul {p n s : Nat} {m1 m2 c1 c2 : Int} (h1 : CtI p n s m1 c1)
    (h2 : CtI p n s m2 c2) : CtI p n s (m1 + m2) (c1 * c2) := by
  obtain ⟨M1, e1, d1⟩ := h1
  obtain ⟨M2, e2, d2⟩ := h2
  exact ⟨M1 + M2, by push_cast; exact e1.add e2, d1.mul d2⟩

theorem CtI.pow {p n s : Nat} {m c : Int} (h : CtI p n s m c) (k : Nat) :
    CtI p n s (m * k) (c ^ k) := by
  obtain ⟨M, e, d⟩ := h
  refine ⟨k * M, ?_, d.pow k⟩
  push_cast
  rw [mul_comm m]
  exact e.mul_left _

theorem CtI.congr {p n s : Nat} {m c c' : Int} (h : CtI p n s m c)
    (hc : c' ≡ c [ZMOD (p : Int) ^ (s + 1)]) : CtI p n s m c' := by
  obtain ⟨M, e, d⟩ := h
  exact ⟨M, e, d.congr hc⟩

/-- A residue `(1+n)^M ρ^(n^s)` modulo `n^(s+1)` is a ciphertext for each prime factor. -/
theorem CtI.of_modN {p n s : Nat} (hpn : p ∣ n) {M : Nat} {m ρ c : Int}
    (hM : (M : Int) ≡ m [ZMOD (n : Int) ^ s]) (hρ : IsCoprime ρ (n : Int))
    (hc : c ≡ (1 + (n : Int)) ^ M * ρ ^ n ^ s [ZMOD (n : Int) ^ (s + 1)]) : CtI p n s m c := by
  have hd : (p : Int) ∣ n := by exact_mod_cast hpn
  exact ⟨M, modEq_of_dvd' hM (pow_dvd_pow_of_dvd hd _), ρ, hρ.of_isCoprime_of_dvd_right hd,
    modEq_of_dvd' hc (pow_dvd_pow_of_dvd hd _)⟩

/-- Ciphertext of `m` for the modulus `n = p q`: in range, and right modulo both prime powers. -/
structure CtN (p q s : Nat) (m c : Int) : Prop where
  nonneg : 0 ≤ c
  lt : c < ((p * q : Nat) : Int) ^ (s + 1)
  modP : CtI p (p * q) s m c
  modQ : CtI q (p * q) s m c

theorem emod_pow_toNat (n s : Nat) (hn : 0 < n) (m : Int) :
    ((m % (n : Int) ^ s).toNat : Int) ≡ m [ZMOD (n : Int) ^ s] := by
  have h : (0 : Int) < (n : Int) ^ s := pow_pos (by omega) _
  rw [Int.toNat_of_nonneg (Int.emod_nonneg _ (ne_of_gt h))]
  exact emod_modEq _ _

theorem CtN.of_modN {p q s : Nat} (h0 : 0 < p * q) {m ρ c : Int}
    (hρ : IsCoprime ρ ((p * q : Nat) : Int))
    (hc : c ≡ (1 + ((p * q : Nat) : Int)) ^ (m % ((p * q : Nat) : Int) ^ s).toNat
      * ρ ^ (p * q) ^ s [ZMOD ((p * q : Nat) : Int) ^ (s + 1)]) :
    CtN p q s m (c % ((p * q : Nat) : Int) ^ (s + 1)) := by
  have hpos : (0 : Int) < ((p * q : Nat) : Int) ^ (s + 1) := pow_pos (by omega) _
  have hM := emod_pow_toNat (p * q) s h0 m
  have hc' := (emod_modEq c (((p * q : Nat) : Int) ^ (s + 1))).trans hc
  exact ⟨Int.emod_nonneg _ (ne_of_gt hpos), Int.emod_lt_of_pos _ hpos,
    CtI.of_modN (Dvd.intro _ rfl) hM hρ hc', CtI.of_modN (Dvd.intro_left _ rfl) hM hρ hc'⟩

theorem modEq_prime_parts {p q e : Nat} {a b : Int}
    (h : a ≡ b [ZMOD ((p * q : Nat) : Int) ^ e]) :
    a ≡ b [ZMOD (p : Int) ^ e] ∧ a ≡ b [ZMOD (q : Int) ^ e] := by
  constructor
  · exact modEq_of_dvd' h (pow_dvd_pow_of_dvd (by push_cast; exact Dvd.intro _ rfl) _)
  · exact modEq_of_dvd' h (pow_dvd_pow_of_dvd (by push_cast; exact Dvd.intro_left _ rfl) _)

/-! ### Private key -/

structure PrivatePaillier.Good (cfg : ExpCfg) (sk : PrivatePaillier) (p q s : Nat) : Prop where
  gp : sk.pCrypto.Good cfg p q s
  gq : sk.qCrypto.Good cfg q p s
  hns : sk.nToS = ((p * q : Nat) : Int) ^ s
  hns1 : sk.nToSPlusOne = ((p * q : Nat) : Int) ^ (s + 1)
  enc : Crt.new ((p : Int) ^ (s + 1)) ((q : Int) ^ (s + 1)) = .ok sk.crtEncrypt
  dec : Crt.new ((p : Int) ^ s) ((q : Int) ^ s) = .ok sk.crtDecrypt

theorem PrivatePaillier.new_good {cfg : ExpCfg} {p q s : Nat} {sk : PrivatePaillier} (hs : 1 ≤ s)
    (h : PrivatePaillier.new cfg p q s = .ok sk) : sk.Good cfg p q s := by
  unfold PrivatePaillier.new at h
  simp only [Res.bind_eq_ok, Res.pure_eq, Res.ok.injEq] at h
  obtain ⟨pc, hpc, qc, hqc, ce, hce, cd, hcd, rfl⟩ := h
  have gp := PrimeCrypto.new_good hs hpc
  have gq := PrimeCrypto.new_good hs hqc
  rw [gp.powers _ (le_refl _), gq.powers _ (le_refl _)] at hce
  rw [gp.powers _ (by omega), gq.powers _ (by omega)] at hcd
  exact ⟨gp, gq, by push_cast; rfl, by push_cast; rw [pow_succ]; ring, hce, hcd⟩

theorem crt_result {p q e : Nat} (hp : 0 < p) (hq : 0 < q) (hc : IsCoprime (p : Int) (q : Int))
    {crt : Crt} (h : Crt.new ((p : Int) ^ e) ((q : Int) ^ e) = .ok crt) (a b : Int) :
    ∃ x, crt.compute a b = .ok x ∧ 0 ≤ x ∧ x < ((p * q : Nat) : Int) ^ e ∧
      x ≡ a [ZMOD (p : Int) ^ e] ∧ x ≡ b [ZMOD (q : Int) ^ e] ∧
      ∀ y, 0 ≤ y → y < ((p * q : Nat) : Int) ^ e → y ≡ a [ZMOD (p : Int) ^ e] →
        y ≡ b [ZMOD (q : Int) ^ e] → y = x := by
  obtain ⟨crt', h1, h2⟩ := Props.C15_crt ((p : Int) ^ e) ((q : Int) ^ e)
    (pow_pos (by omega) _) (pow_pos (by omega) _)
    (Int.isCoprime_iff_gcd_eq_one.1 hc.pow)
  rw [h1] at h
  obtain rfl : crt' = crt := by simpa using h
  obtain ⟨x, hx, ⟨x0, x1, x2, x3⟩, hu⟩ := h2 a b
  have e1 : ((p * q : Nat) : Int) ^ e = (p : Int) ^ e * (q : Int) ^ e := by
    push_cast; exact mul_pow _ _ _
  rw [e1]
  exact ⟨x, hx, x0, x1, x2, x3, fun y y0 y1 y2 y3 => hu y ⟨y0, y1, y2, y3⟩⟩

theorem PrivatePaillier.Good.coprime {cfg : ExpCfg} {sk : PrivatePaillier} {p q s : Nat}
    (g : sk.Good cfg p q s) : IsCoprime (p : Int) (q : Int) := g.gq.qcop

theorem PrivatePaillier.Good.pos {cfg : ExpCfg} {sk : PrivatePaillier} {p q s : Nat}
    (g : sk.Good cfg p q s) : 0 < p ∧ 0 < q :=
  ⟨g.gp.prime.pos, g.gq.prime.pos⟩

/-- Decryption of a ciphertext. -/
theorem PrivatePaillier.decrypt_spec {cfg : ExpCfg} {sk : PrivatePaillier} {p q s : Nat}
    (g : sk.Good cfg p q s) {m c : Int} (hc : CtN p q s m c) :
    sk.decrypt c = .ok (m % ((p * q : Nat) : Int) ^ s) := by
  obtain ⟨M, hM, hcp⟩ := hc.modP
  obtain ⟨M', hM', hcq⟩ := hc.modQ
  obtain ⟨mp, h1, h2⟩ := PrimeCrypto.decrypt_spec g.gp hcp
  rw [mul_comm p q] at hcq
  obtain ⟨mq, h3, h4⟩ := PrimeCrypto.decrypt_spec g.gq hcq
  obtain ⟨x, hx, x0, x1, x2, x3, hu⟩ := crt_result g.pos.1 g.pos.2 g.coprime g.dec mp mq
  unfold PrivatePaillier.decrypt
  rw [if_neg (by have := hc.nonneg; omega), if_neg (by rw [g.hns1]; have := hc.lt; omega), h1]
  simp only [Res.ok_bind, h3]
  rw [hx]
  have hpos : (0 : Int) < ((p * q : Nat) : Int) ^ s :=
    pow_pos (by have := Nat.mul_pos g.pos.1 g.pos.2; omega) _
  have hmod := modEq_prime_parts (emod_modEq m (((p * q : Nat) : Int) ^ s))
  congr 1
  symm
  exact hu _ (Int.emod_nonneg _ (ne_of_gt hpos)) (Int.emod_lt_of_pos _ hpos)
    (hmod.1.trans (hM.symm.trans h2.symm)) (hmod.2.trans (hM'.symm.trans h4.symm))

/-- Public-key encryption with explicit randomness. -/
theorem PublicPaillier.encryptWithRand_spec {cfg : ExpCfg} {x : Int} {n s : Nat}
    {pk : PublicPaillier} (g : pk.Good cfg x n s) (m : Int) {r : Int} (hr : Int.gcd r n = 1) :
    ∃ c, pk.encryptWithRand m r = .ok (c % (n : Int) ^ (s + 1)) ∧
      c ≡ (1 + (n : Int)) ^ (m % (n : Int) ^ s).toNat * r ^ n ^ s [ZMOD (n : Int) ^ (s + 1)] := by
  have hps1 : (0 : Int) < (n : Int) ^ (s + 1) := pow_pos (by have := g.npos; omega) _
  have hnn : ¬ ((n : Int) ^ s < 0) := by
    have : (0 : Int) ≤ (n : Int) ^ s := by positivity
    omega
  have e : ((n : Int) ^ s).toNat = n ^ s := by
    have : (n : Int) ^ s = ((n ^ s : Nat) : Int) := by push_cast; ring
    rw [this, Int.toNat_natCast]
  refine ⟨DJ.binomialExpansion pk.precomp pk.nPowers m * (r ^ n ^ s % (n : Int) ^ (s + 1)), ?_,
    (PublicPaillier.binom g m).mul (emod_modEq _ _)⟩
  unfold PublicPaillier.encryptWithRand
  simp only [g.hn, hr, ne_eq, not_true_eq_false, if_false, g.hs, g.powers s (by omega), g.hmod,
    BN.modExp, hnn, ne_of_gt hps1, Res.ok_bind, e, Res.pure_eq]

theorem PublicPaillier.encryptUsingGen_spec {cfg : ExpCfg} {x : Int} {n s : Nat}
    {pk : PublicPaillier} (g : pk.Good cfg x n s) (m : Int) {r : Int} (hr : 0 ≤ r) (hr2 : r ≤ n) :
    ∃ c, pk.encryptUsingGeneratorAndRand m r = .ok (c % (n : Int) ^ (s + 1)) ∧
      c ≡ (1 + (n : Int)) ^ (m % (n : Int) ^ s).toNat *
        (((n : Int) - x * x % n) ^ r.toNat) ^ n ^ s [ZMOD (n : Int) ^ (s + 1)] := by
  have hps1 : (0 : Int) < (n : Int) ^ (s + 1) := pow_pos (by have := g.npos; omega) _
  have hmod := FixedBaseExp.modExp_spec hps1 g.fbe hr
  refine ⟨DJ.binomialExpansion pk.precomp pk.nPowers m *
    ((((n : Int) - x * x % n) ^ n ^ s % (n : Int) ^ (s + 1)) ^ r.toNat % (n : Int) ^ (s + 1)), by
    unfold PublicPaillier.encryptUsingGeneratorAndRand
    simp only [g.hn, show ¬ ((n : Int) < r) by omega, if_false, hmod, Res.ok_bind, Res.pure_eq,
      g.hmod], (PublicPaillier.binom g m).mul ?_⟩
  refine (emod_modEq _ _).trans (((emod_modEq _ _).pow r.toNat).trans (meq_of_eq ?_))
  rw [← pow_mul, ← pow_mul, mul_comm (n ^ s)]

/-- Private-key encryption: both prime parts, recombined. -/
theorem PrivatePaillier.parts_spec {cfg : ExpCfg} {sk : PrivatePaillier} {p q s : Nat}
    (g : sk.Good cfg p q s) (m : Nat) {rp rq : Int} (hrp : 0 ≤ rp) (hrq : 0 ≤ rq) :
    ∃ cp cq c, sk.pCrypto.encryptWithRand (m : Int) rp = .ok cp ∧
      sk.qCrypto.encryptWithRand (m : Int) rq = .ok cq ∧ sk.crtEncrypt.compute cp cq = .ok c ∧
      0 ≤ c ∧ c < ((p * q : Nat) : Int) ^ (s + 1) ∧
      c ≡ (1 + ((p * q : Nat) : Int)) ^ m * (sk.pCrypto.gP ^ rp.toNat) ^ (p * q) ^ s
        [ZMOD (p : Int) ^ (s + 1)] ∧
      c ≡ (1 + ((p * q : Nat) : Int)) ^ m * (sk.qCrypto.gP ^ rq.toNat) ^ (p * q) ^ s
        [ZMOD (q : Int) ^ (s + 1)] := by
  obtain ⟨cp, h1, h2⟩ := PrimeCrypto.encryptWithRand_spec g.gp m hrp
  obtain ⟨cq, h3, h4⟩ := PrimeCrypto.encryptWithRand_spec g.gq m hrq
  obtain ⟨c, hc, c0, c1, c2, c3, _⟩ := crt_result g.pos.1 g.pos.2 g.coprime g.enc cp cq
  rw [mul_comm q p] at h4
  exact ⟨cp, cq, c, h1, h3, hc, c0, c1, c2.trans h2, c3.trans h4⟩

theorem CtN.of_parts {p q s m : Nat} {c gp gq : Int} (h0 : 0 ≤ c)
    (h1 : c < ((p * q : Nat) : Int) ^ (s + 1)) (hp : IsCoprime gp (p : Int))
    (hq : IsCoprime gq (q : Int))
    (h2 : c ≡ (1 + ((p * q : Nat) : Int)) ^ m * gp ^ (p * q) ^ s [ZMOD (p : Int) ^ (s + 1)])
    (h3 : c ≡ (1 + ((p * q : Nat) : Int)) ^ m * gq ^ (p * q) ^ s [ZMOD (q : Int) ^ (s + 1)]) :
    CtN p q s m c :=
  ⟨h0, h1, ⟨m, Int.ModEq.refl _, gp, hp, h2⟩, ⟨m, Int.ModEq.refl _, gq, hq, h3⟩⟩

/-- Every unit modulo `p`, whether or not it is an honest encryption, is decrypted without a
crash. -/
theorem PrimeCrypto.decInner_ok (pc : PrimeCrypto) (b n : Int) (s j : Nat) (hjs : j ≤ s)
    (htab : ∀ k j, 2 ≤ k → k ≤ j → j ≤ s → EntryOk b n k j (pc.decryptPrecomp k j)) :
    ∀ (cnt k : Nat) (mL t1 t2 : Int), 2 ≤ k → k + cnt ≤ j + 1 →
      ∃ r, decInner pc j cnt k mL t1 t2 = .ok r
  | 0, k, mL, t1, t2, _, _ => ⟨t1, rfl⟩
  | cnt + 1, k, mL, t1, t2, hk, hc => by
    obtain ⟨v, hv, -⟩ := htab k j hk (by omega) hjs
    have hget : pc.decryptPrecomp.get k j = .ok v := by simp [Table.get, hv]
    unfold decInner
    simp only [hget, Res.ok_bind]
    exact decInner_ok pc b n s j hjs htab cnt (k + 1) _ _ _ (by omega) (by omega)

theorem PrimeCrypto.decOuter_ok (pc : PrimeCrypto) (b n : Int) (s : Nat) (lu : Int)
    (htab : ∀ k j, 2 ≤ k → k ≤ j → j ≤ s → EntryOk b n k j (pc.decryptPrecomp k j)) :
    ∀ (cnt j : Nat) (mL : Int), 1 ≤ j → j + cnt ≤ s + 1 →
      ∃ r, decOuter pc lu cnt j mL = .ok r
  | 0, j, mL, _, _ => ⟨mL, rfl⟩
  | cnt + 1, j, mL, hj, hc => by
    obtain ⟨r, hr⟩ := PrimeCrypto.decInner_ok pc b n s j (by omega) htab (j - 1) 2 mL
      (lu % pc.pToExp j) mL (le_refl _) (by omega)
    unfold decOuter
    simp only [hr, Res.ok_bind]
    exact decOuter_ok pc b n s lu htab cnt (j + 1) r (by omega) (by omega)

theorem PrimeCrypto.decrypt_unit {cfg : ExpCfg} {pc : PrimeCrypto} {p q s : Nat}
    (hg : pc.Good cfg p q s) {c : Int} (hc : IsCoprime c (p : Int)) :
    ∃ r, pc.decrypt c = .ok r := by
  have hpp := hg.prime.two_le
  have hpos : (0 : Int) < p := by omega
  have hps1 : (0 : Int) < (p : Int) ^ (s + 1) := pow_pos hpos _
  have hf : c ^ (p - 1) ≡ 1 [ZMOD (p : Int)] := Int.ModEq.pow_card_sub_one_eq_one hg.prime hc
  set u := c ^ (p - 1) % (p : Int) ^ (s + 1) with hu
  have hu1 : u ≡ 1 [ZMOD (p : Int)] :=
    (modEq_of_dvd' (emod_modEq _ _) (dvd_pow_self _ (by omega))).trans hf
  obtain ⟨x, hx⟩ := hu1.symm.dvd
  have hdiv : BN.div (u - 1) (p : Int) = .ok x := by
    unfold BN.div
    have : (u - 1).tmod (p : Int) = 0 := by rw [hx]; exact Int.mul_tmod_right _ _
    simp only [ne_of_gt hpos, if_false, this, ne_eq, not_true_eq_false]
    rw [hx, Int.mul_tdiv_cancel_left _ (ne_of_gt hpos)]
  have hmod : BN.modExp c ((p : Int) - 1) ((p : Int) ^ (s + 1)) = .ok u := by
    unfold BN.modExp
    have h1 : ¬ ((p : Int) - 1 < 0) := by omega
    have h2 : ((p : Int) - 1).toNat = p - 1 := by omega
    simp only [h1, if_false, ne_of_gt hps1, h2, hu]
  obtain ⟨r, hr⟩ := PrimeCrypto.decOuter_ok pc (p : Int) ((p : Int) * q) s
    (x * pc.otherPrimeInv % (p : Int) ^ s) hg.table s 1 0 (le_refl _) (by omega)
  unfold PrimeCrypto.decrypt PrimeCrypto.lFunc
  rw [hg.hphi, hg.hs, hg.powers _ (le_refl _), hg.powers s (by omega), hg.hp, hmod]
  simp only [Res.ok_bind, hdiv, Res.pure_eq, hr]
  exact ⟨_, rfl⟩

/-- A ciphertext divisible by `p` makes the exact division abort. -/
theorem PrimeCrypto.decrypt_nonunit {cfg : ExpCfg} {pc : PrimeCrypto} {p q s : Nat}
    (hg : pc.Good cfg p q s) {c : Int} (hc : (p : Int) ∣ c) : pc.decrypt c = .crash := by
  have hpp := hg.prime.two_le
  have h3 := hg.gt3
  have hpos : (0 : Int) < p := by omega
  have hps1 : (0 : Int) < (p : Int) ^ (s + 1) := pow_pos hpos _
  set u := c ^ (p - 1) % (p : Int) ^ (s + 1) with hu
  have hmod : BN.modExp c ((p : Int) - 1) ((p : Int) ^ (s + 1)) = .ok u := by
    unfold BN.modExp
    have h1 : ¬ ((p : Int) - 1 < 0) := by omega
    have h2 : ((p : Int) - 1).toNat = p - 1 := by omega
    simp only [h1, if_false, ne_of_gt hps1, h2, hu]
  have hdu : (p : Int) ∣ u := by
    rw [hu]
    have h1 : (p : Int) ∣ (p : Int) ^ (s + 1) := dvd_pow_self _ (by omega)
    have h2 : (p : Int) ∣ c ^ (p - 1) := dvd_pow hc (by omega)
    rw [Int.emod_def]
    exact Int.dvd_sub h2 (h1.mul_right _)
  have hdiv : BN.div (u - 1) (p : Int) = .crash := by
    unfold BN.div
    have : (u - 1).tmod (p : Int) ≠ 0 := by
      intro h
      have h1 : (p : Int) ∣ u - 1 := Int.dvd_of_tmod_eq_zero h
      have h2 : (p : Int) ∣ 1 := by simpa using (Int.dvd_sub hdu h1)
      have := Int.le_of_dvd (by omega) h2
      omega
    simp only [ne_of_gt hpos, if_false, this, ne_eq, not_false_eq_true, if_true]
  unfold PrimeCrypto.decrypt PrimeCrypto.lFunc
  rw [hg.hphi, hg.hs, hg.powers _ (le_refl _), hg.hp, hmod]
  simp only [Res.ok_bind, hdiv, Res.crash_bind]

end PJC
