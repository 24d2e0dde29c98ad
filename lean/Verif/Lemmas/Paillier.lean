import Mathlib.NumberTheory.LegendreSymbol.Basic
import Mathlib.FieldTheory.Finite.Basic
import Verif.Lemmas.DJ
namespace PJC
open PJC.DJ

/-! ### Generators -/

theorem generatorLoop_spec (p q : Int) : ∀ (cnt : Nat) (g r : Int),
    generatorLoop p q cnt g = .ok r →
      g ≤ r ∧ ¬ (r * r % p = 1 ∨ r ^ q.toNat % p = 1) ∧
      ∀ x, g ≤ x → x < r → (x * x % p = 1 ∨ x ^ q.toNat % p = 1)
  | 0, g, r, h => by simp [generatorLoop] at h
  | cnt + 1, g, r, h => by
    unfold generatorLoop at h
    split at h
    · rename_i hc
      obtain ⟨h1, h2, h3⟩ := generatorLoop_spec p q cnt (g + 1) r h
      refine ⟨by omega, h2, fun x hx1 hx2 => ?_⟩
      by_cases hxg : x = g
      · subst hxg; exact hc
      · exact h3 x (by omega) hx2
    · rename_i hc
      cases h
      exact ⟨le_refl _, hc, fun x h1 h2 => by omega⟩

theorem generatorLoop_ok (p q : Int) : ∀ (cnt : Nat) (g : Int),
    (∃ x, g ≤ x ∧ x < g + cnt ∧ ¬ (x * x % p = 1 ∨ x ^ q.toNat % p = 1)) →
    ∃ r, generatorLoop p q cnt g = .ok r
  | 0, g, ⟨x, h1, h2, _⟩ => by push_cast at h2; omega
  | cnt + 1, g, ⟨x, h1, h2, h3⟩ => by
    unfold generatorLoop
    split
    · rename_i hc
      apply generatorLoop_ok p q cnt (g + 1)
      refine ⟨x, ?_, by push_cast at h2 ⊢; omega, h3⟩
      by_contra hcon
      have : x = g := by omega
      subst this
      exact h3 hc
    · exact ⟨g, rfl⟩

/-- In a prime field of order other than 2 and 3 some element in `[2, p-2]` passes the test. -/
theorem exists_generator_lt (p : Nat) (hp : p.Prime) (h3 : 3 < p) :
    ∃ x : Int, 2 ≤ x ∧ x < p ∧ ¬ (x * x % p = 1 ∨ x ^ (p / 2) % (p : Int) = 1) := by
  have := Fact.mk hp
  have hchar : ringChar (ZMod p) ≠ 2 := by
    rw [ZMod.ringChar_zmod_n]; omega
  obtain ⟨a0, ha0⟩ := FiniteField.exists_nonsquare hchar
  -- choose a nonsquare different from -1
  obtain ⟨a, ha, hne⟩ : ∃ a : ZMod p, ¬ IsSquare a ∧ a ≠ -1 := by
    by_cases h : a0 = -1
    · refine ⟨4 * a0, ?_, ?_⟩
      · intro ⟨y, hy⟩
        apply ha0
        have h2 : (2 : ZMod p) ≠ 0 := by
          intro h2
          have : ((2 : Nat) : ZMod p) = 0 := by exact_mod_cast h2
          rw [ZMod.natCast_eq_zero_iff] at this
          have := Nat.le_of_dvd (by omega) this
          omega
        refine ⟨y / 2, ?_⟩
        field_simp
        linear_combination hy
      · rw [h]
        intro hc
        have : ((3 : Nat) : ZMod p) = 0 := by
          push_cast
          linear_combination (-1 : ZMod p) * hc
        rw [ZMod.natCast_eq_zero_iff] at this
        have := Nat.le_of_dvd (by omega) this
        omega
    · exact ⟨a0, ha0, h⟩
  have ha00 : a ≠ 0 := by rintro rfl; exact ha ⟨0, by simp⟩
  have ha1 : a ≠ 1 := by rintro rfl; exact ha ⟨1, by simp⟩
  have hval : ((a.val : Int) : ZMod p) = a := by
    rw [Int.cast_natCast, ZMod.natCast_zmod_val]
  have hnt : ∀ y : Int, y % (p : Int) = 1 → (y : ZMod p) = 1 := by
    intro y hy
    have : ((y % (p : Int) : Int) : ZMod p) = ((1 : Int) : ZMod p) := by rw [hy]
    simpa using this
  refine ⟨(a.val : Int), ?_, ?_, ?_⟩
  · have h0 : a.val ≠ 0 := by rwa [Ne, ZMod.val_eq_zero]
    have h1 : a.val ≠ 1 := by
      intro h
      apply ha1
      rw [← hval, h]; simp
    omega
  · exact_mod_cast ZMod.val_lt a
  · rintro (h | h)
    · have := hnt _ h
      rw [Int.cast_mul, hval] at this
      rcases mul_self_eq_one_iff.1 this with h | h
      · exact ha1 h
      · exact hne h
    · have := hnt _ h
      rw [Int.cast_pow, hval] at this
      exact ha ((ZMod.euler_criterion p ha00).2 this)

theorem isSafePrime_true {p : Int} (h : BN.isSafePrime p = .ok true) :
    ∃ P : Nat, p = P ∧ P.Prime ∧ 3 < P ∧ P % 2 = 1 ∧ (P / 2).Prime := by
  unfold BN.isSafePrime at h
  split at h
  · rename_i hp
    simp only [Res.bind_eq_ok, Res.pure_eq, Res.ok.injEq, decide_eq_true_eq] at h
    obtain ⟨x, hx, hxp⟩ := h
    refine ⟨p.natAbs, by have := hp.1; omega, hp.2, ?_⟩
    unfold BN.div at hx
    simp only [show ¬ ((2 : Int) = 0) by decide, if_false] at hx
    split at hx
    · cases hx
    · rename_i hrem
      simp only [ne_eq, not_not] at hrem
      cases hx
      have hp0 := hp.1
      have h1 : 2 ≤ p.natAbs := hp.2.two_le
      rw [Int.tmod_eq_emod_of_nonneg (by omega)] at hrem
      have e : ((p - 1).tdiv 2) = ((p.natAbs / 2 : Nat) : Int) := by
        rw [Int.tdiv_eq_ediv_of_nonneg (by omega)]
        omega
      rw [e] at hxp
      have h2 := hxp.2.two_le
      simp only [Int.natAbs_natCast] at h2
      refine ⟨by omega, by omega, ?_⟩
      have h4 := hxp.2
      rwa [Int.natAbs_natCast] at h4
  · cases h

theorem isSafePrime_ok {P : Nat} (hP : P.Prime) (h2 : P % 2 = 1) (hq : (P / 2).Prime) :
    BN.isSafePrime (P : Int) = .ok true := by
  have h1 := hP.two_le
  have hrem : ((P : Int) - 1).tmod 2 = 0 := by
    rw [Int.tmod_eq_emod_of_nonneg (by omega)]; omega
  have e : (((P : Int) - 1).tdiv 2) = ((P / 2 : Nat) : Int) := by
    rw [Int.tdiv_eq_ediv_of_nonneg (by omega)]
    omega
  have hpr : BN.isPrime (P : Int) := ⟨by omega, by simpa using hP⟩
  have hpr2 : BN.isPrime ((P / 2 : Nat) : Int) := ⟨by have := hq.two_le; omega, by rw [Int.natAbs_natCast]; exact hq⟩
  unfold BN.isSafePrime
  rw [if_pos hpr]
  simp only [BN.div, hrem, e, show ¬ ((2 : Int) = 0) by decide, if_false, ne_eq,
    not_true_eq_false, Res.ok_bind, Res.pure_eq, Res.ok.injEq, decide_eq_true_eq]
  exact hpr2

theorem div_two_of_odd {P : Nat} (h2 : P % 2 = 1) (h1 : 2 ≤ P) :
    BN.div ((P : Int) - 1) 2 = .ok ((P / 2 : Nat) : Int) := by
  have hrem : ((P : Int) - 1).tmod 2 = 0 := by
    rw [Int.tmod_eq_emod_of_nonneg (by omega)]; omega
  have e : (((P : Int) - 1).tdiv 2) = ((P / 2 : Nat) : Int) := by
    rw [Int.tdiv_eq_ediv_of_nonneg (by omega)]
    omega
  simp only [BN.div, hrem, e, show ¬ ((2 : Int) = 0) by decide, if_false, ne_eq,
    not_true_eq_false]

theorem getGeneratorOfPrimePowers_spec {p g : Int} (h : getGeneratorOfPrimePowers p = .ok g) :
    ∃ P : Nat, p = P ∧ P.Prime ∧ 3 < P ∧ P % 2 = 1 ∧ (P / 2).Prime ∧
      0 < g ∧ g < 2 * p ∧ IsCoprime g p := by
  unfold getGeneratorOfPrimePowers getGeneratorForSafePrime at h
  simp only [Res.bind_eq_ok] at h
  obtain ⟨g0, ⟨safe, hs, h0⟩, h⟩ := h
  split at h0
  · cases h0
  · rename_i hsafe
    have hst : safe = true := by simpa using hsafe
    subst hst
    obtain ⟨P, rfl, hP, h3, h2, hq⟩ := isSafePrime_true hs
    refine ⟨P, rfl, hP, h3, h2, hq, ?_⟩
    rw [div_two_of_odd h2 (by omega)] at h0
    simp only [Res.ok_bind] at h0
    obtain ⟨hge, hgood, hbad⟩ := generatorLoop_spec _ _ _ _ _ h0
    have hlt : g0 < P := by
      by_contra hcon
      obtain ⟨x, hx2, hxp, hx⟩ := exists_generator_lt P hP h3
      have h5 := hbad x hx2 (by omega)
      rw [Int.toNat_natCast] at h5
      exact hx h5
    have hco : IsCoprime g0 (P : Int) := by
      rw [Int.isCoprime_iff_gcd_eq_one, Int.gcd_comm]
      rw [Int.gcd_eq_natAbs, Int.natAbs_natCast]
      rw [← Nat.coprime_iff_gcd_eq_one, hP.coprime_iff_not_dvd]
      intro hd
      have := Nat.le_of_dvd (by omega) hd
      omega
    split at h
    · cases h
      refine ⟨by omega, by omega, ?_⟩
      have := hco.add_mul_right_left 1
      simpa using this
    · cases h
      exact ⟨by omega, by omega, hco⟩

/-! ### PrimeCrypto -/

/-- Facts established by a successful construction for prime `p` and cofactor `q`. -/
structure PrimeCrypto.Good (cfg : ExpCfg) (pc : PrimeCrypto) (p q s : Nat) : Prop where
  prime : p.Prime
  odd : p % 2 = 1
  gt3 : 3 < p
  half : (p / 2).Prime
  qcop : IsCoprime (q : Int) (p : Int)
  co : ∀ i : Nat, 1 ≤ i → i ≤ s → IsCoprime (i : Int) (p : Int)
  hp : pc.p = p
  hphi : pc.pPhi = (p : Int) - 1
  hn : pc.n = (p : Int) * q
  hs : pc.s = s
  powers : ∀ i ≤ s + 1, pc.pToExp i = (p : Int) ^ i
  prelen : pc.precomp.length = s + 1
  pre : ∀ k ≤ s, (k.factorial : Int) * pc.precomp.getD k 0 ≡ ((p : Int) * q) ^ k
    [ZMOD (p : Int) ^ (s + 1)]
  lam : ((p : Int) - 1) * pc.lambdaInv ≡ 1 [ZMOD (p : Int) ^ s]
  oth : (q : Int) * pc.otherPrimeInv ≡ 1 [ZMOD (p : Int) ^ s]
  table : ∀ k j, 2 ≤ k → k ≤ j → j ≤ s →
    EntryOk (p : Int) ((p : Int) * q) k j (pc.decryptPrecomp k j)
  gpos : 0 < pc.gP
  glt : pc.gP < 2 * p
  gco : IsCoprime pc.gP (p : Int)
  fbe : FixedBaseExp.get cfg.flag cfg.radixBits
    (pc.gP ^ (p * q) ^ s % (p : Int) ^ (s + 1)) ((p : Int) ^ (s + 1)) = .ok pc.fbe

theorem modInverse_value_crash {a m : Int} (h : Int.gcd a m ≠ 1) :
    BN.modInverse a m = .err .invalidArgument := by
  simp [BN.modInverse, h]

theorem PrimeCrypto.new_good {cfg : ExpCfg} {p q s : Nat} {pc : PrimeCrypto} (hs : 1 ≤ s)
    (h : PrimeCrypto.new cfg p q s = .ok pc) : pc.Good cfg p q s := by
  unfold PrimeCrypto.new at h
  simp only [Res.bind_eq_ok, Res.pure_eq, Res.ok.injEq] at h
  obtain ⟨pre, hpre, lam, hlam, oth, hoth, tab, htab, g, hg, base, hbase, fbe, hfbe, rfl⟩ := h
  obtain ⟨P, hP, hprime, h3, hodd, hhalf, g0, glt, gco⟩ := getGeneratorOfPrimePowers_spec hg
  have hPp : P = p := by exact_mod_cast hP.symm
  subst hPp
  have hpos : (0 : Int) < P := by omega
  have hps : (0 : Int) < (P : Int) ^ (s + 1) := pow_pos hpos _
  have pw : ∀ i ≤ s + 1, (getPowers (P : Int) s).getD i 0 = (P : Int) ^ i :=
    fun i hi => getPowers_get _ _ _ hi
  have hval : ∀ {x m y : Int}, (BN.modInverse x m).value = .ok y → BN.modInverse x m = .ok y := by
    intro x m y hh
    cases hx : BN.modInverse x m with
    | ok v => rw [hx] at hh; simpa using hh
    | err c => rw [hx] at hh; cases hh
    | crash => rw [hx] at hh; cases hh
    | ub => rw [hx] at hh; cases hh
  have hco : ∀ i : Nat, 1 ≤ i → i ≤ s → IsCoprime (i : Int) (P : Int) := by
    intro i h1 h2
    by_contra hcon
    have hgcd : Int.gcd (i : Int) ((P : Int) ^ (s + 1)) ≠ 1 := by
      intro hg1
      apply hcon
      have := Int.isCoprime_iff_gcd_eq_one.2 hg1
      exact (IsCoprime.pow_right_iff (by omega)).1 this
    have := getPrecomp_crash ((P : Int) * q) ((P : Int) ^ (s + 1)) s s 1 [1]
      ⟨i, h1, by omega, modInverse_value_crash hgcd⟩
    unfold getPrecomp at hpre
    rw [pw (s + 1) (le_refl _), this] at hpre
    cases hpre
  have hgcds : ∀ k : Nat, 1 ≤ k → k ≤ s → Int.gcd (k : Int) ((P : Int) ^ (s + 1)) = 1 :=
    fun k h1 h2 => Int.isCoprime_iff_gcd_eq_one.1 ((hco k h1 h2).pow_right)
  rw [pw (s + 1) (le_refl _)] at hpre hbase hfbe
  rw [pw s (by omega)] at hlam hoth
  obtain ⟨pre', hp1, hp2, hp3⟩ := getPrecomp_spec ((P : Int) * q) ((P : Int) ^ (s + 1)) s hps hgcds
  rw [hp1] at hpre
  obtain rfl : pre' = pre := by simpa using hpre
  obtain ⟨t', ht1, ht2⟩ := getDecryptPrecomp_spec (P : Int) ((P : Int) * q) hpos
    (getPowers (P : Int) s) pre' s pw hp3 hco
  rw [ht1] at htab
  obtain rfl : t' = tab := by simpa using htab
  have hl := BN.modInverse_eq_ok (hval hlam)
  have ho := BN.modInverse_eq_ok (hval hoth)
  have hbase' : base = g ^ (P * q) ^ s % (P : Int) ^ (s + 1) := by
    unfold BN.modExp at hbase
    have hnn : ¬ (((P : Int) * q) ^ s < 0) := by
      have : (0 : Int) ≤ ((P : Int) * q) ^ s := by positivity
      omega
    simp only [hnn, if_false, ne_of_gt hps, Res.ok.injEq] at hbase
    have : ((P : Int) * q) ^ s = (((P * q) ^ s : Nat) : Int) := by push_cast; ring
    rw [← hbase, this, Int.toNat_natCast]
  rw [hbase'] at hfbe
  exact {
    prime := hprime, odd := hodd, gt3 := h3, half := hhalf
    qcop := (IsCoprime.pow_right_iff (by omega)).1 (Int.isCoprime_iff_gcd_eq_one.2 ho.2.1)
    co := hco, hp := rfl, hphi := rfl, hn := rfl, hs := rfl, powers := pw, prelen := hp2
    pre := hp3, lam := hl.2.2.1, oth := ho.2.2.1, table := ht2, gpos := g0, glt := glt, gco := gco
    fbe := hfbe }

/-- Availability: for a safe prime `p`, a coprime cofactor, `s < p`, and a generator among the
first 1000 candidates, the constructor succeeds. -/
theorem PrimeCrypto.new_ok (cfg : ExpCfg) (p q s : Nat) (hp : p.Prime)
    (hodd : p % 2 = 1) (hhalf : (p / 2).Prime) (hq : Nat.Coprime q p) (hsp : s < p)
    (hgen : ∃ g : Nat, 2 ≤ g ∧ g < 1002 ∧ ¬ (g * g % p = 1 ∨ g ^ (p / 2) % p = 1)) :
    ∃ pc, PrimeCrypto.new cfg p q s = .ok pc := by
  have h3 : 3 < p := by have := hhalf.two_le; omega
  have hpos : (0 : Int) < p := by omega
  have hco : ∀ i : Nat, 1 ≤ i → i ≤ s → IsCoprime (i : Int) (p : Int) := by
    intro i h1 h2
    rw [Nat.isCoprime_iff_coprime]
    rw [Nat.coprime_comm, hp.coprime_iff_not_dvd]
    intro hd
    have := Nat.le_of_dvd (by omega) hd
    omega
  have pw : ∀ i ≤ s + 1, (getPowers (p : Int) s).getD i 0 = (p : Int) ^ i :=
    fun i hi => getPowers_get _ _ _ hi
  have hgcds : ∀ k : Nat, 1 ≤ k → k ≤ s → Int.gcd (k : Int) ((p : Int) ^ (s + 1)) = 1 :=
    fun k h1 h2 => Int.isCoprime_iff_gcd_eq_one.1 ((hco k h1 h2).pow_right)
  have hps1 : (0 : Int) < (p : Int) ^ (s + 1) := pow_pos hpos _
  have hps : (0 : Int) < (p : Int) ^ s := pow_pos hpos _
  obtain ⟨pre, hp1, hp2, hp3⟩ := getPrecomp_spec ((p : Int) * q) ((p : Int) ^ (s + 1)) s hps1 hgcds
  obtain ⟨tab, ht1, ht2⟩ := getDecryptPrecomp_spec (p : Int) ((p : Int) * q) hpos
    (getPowers (p : Int) s) pre s pw hp3 hco
  have hlam : Int.gcd ((p : Int) - 1) ((p : Int) ^ s) = 1 := by
    apply Int.isCoprime_iff_gcd_eq_one.1
    apply IsCoprime.pow_right
    exact ⟨-1, 1, by ring⟩
  have hoth : Int.gcd (q : Int) ((p : Int) ^ s) = 1 := by
    apply Int.isCoprime_iff_gcd_eq_one.1
    apply IsCoprime.pow_right
    exact Nat.isCoprime_iff_coprime.2 hq
  obtain ⟨g, hg⟩ : ∃ g, getGeneratorOfPrimePowers (p : Int) = .ok g := by
    unfold getGeneratorOfPrimePowers getGeneratorForSafePrime
    rw [isSafePrime_ok hp hodd hhalf]
    simp only [Res.ok_bind, Bool.true_eq_false, if_false, div_two_of_odd hodd hp.two_le]
    obtain ⟨x, hx1, hx2, hx3⟩ := hgen
    obtain ⟨r, hr⟩ := generatorLoop_ok (p : Int) ((p / 2 : Nat) : Int) kGeneratorTryCount 2
      ⟨(x : Int), by omega, by simp [kGeneratorTryCount]; omega, by
        simp only [Int.toNat_natCast]
        intro hc
        apply hx3
        rcases hc with hc | hc
        · left; exact_mod_cast hc
        · right; exact_mod_cast hc⟩
    rw [hr]
    simp only [Res.ok_bind, Res.pure_eq]
    split <;> exact ⟨_, rfl⟩
  have hnn : ¬ (((p : Int) * q) ^ s < 0) := by
    have : (0 : Int) ≤ ((p : Int) * q) ^ s := by positivity
    omega
  obtain ⟨f, hf⟩ := FixedBaseExp.get_ok (flag := cfg.flag) (k := cfg.radixBits)
    (base := g ^ (((p : Int) * q) ^ s).toNat % (p : Int) ^ (s + 1)) (m := (p : Int) ^ (s + 1))
    (fun _ => by
      refine ⟨?_, ?_, Int.emod_nonneg _ hps1.ne', Int.emod_lt_of_pos _ hps1⟩
      · exact one_lt_pow₀ (by omega) (by omega)
      · have : (p : Int) % 2 = 1 := by omega
        have h2 := Int.ModEq.pow (s + 1) (show (p : Int) ≡ 1 [ZMOD 2] from this)
        rw [one_pow] at h2
        exact h2)
  unfold PrimeCrypto.new
  simp only [pw (s + 1) (le_refl _), pw s (by omega), hp1, Res.ok_bind,
    BN.modInverse_ok hps hlam, BN.modInverse_ok hps hoth, Res.value_ok, ht1, hg, BN.modExp, hnn,
    if_false, ne_of_gt hps1, hf, Res.pure_eq]
  exact ⟨_, rfl⟩

/-! ### Ciphertexts -/

/-- Modulo `p^(s+1)`, `c` is `(1+n)^m` times an `n^s`-th power of a unit. -/
def CtMod (p n s : Nat) (m : Nat) (c : Int) : Prop :=
  ∃ ρ : Int, IsCoprime ρ (p : Int) ∧
    c ≡ (1 + (n : Int)) ^ m * ρ ^ n ^ s [ZMOD (p : Int) ^ (s + 1)]

theorem CtMod.mul {p n s m1 m2 : Nat} {c1 c2 : Int} (h1 : CtMod p n s m1 c1)
    (h2 : CtMod p n s m2 c2) : CtMod p n s (m1 + m2) (c1 * c2) := by
  obtain ⟨r1, a1, b1⟩ := h1
  obtain ⟨r2, a2, b2⟩ := h2
  refine ⟨r1 * r2, a1.mul_left a2, (b1.mul b2).trans (meq_of_eq ?_)⟩
  rw [pow_add, mul_pow]; ring

theorem CtMod.pow {p n s m : Nat} {c : Int} (h : CtMod p n s m c) (k : Nat) :
    CtMod p n s (k * m) (c ^ k) := by
  obtain ⟨r, a, b⟩ := h
  refine ⟨r ^ k, a.pow_left, (b.pow k).trans (meq_of_eq ?_)⟩
  rw [mul_pow, ← pow_mul, ← pow_mul, ← pow_mul, mul_comm m k, mul_comm k (n ^ s)]

theorem CtMod.congr {p n s m : Nat} {c c' : Int} (h : CtMod p n s m c)
    (hc : c' ≡ c [ZMOD (p : Int) ^ (s + 1)]) : CtMod p n s m c' := by
  obtain ⟨r, a, b⟩ := h
  exact ⟨r, a, hc.trans b⟩

theorem CtMod.period {p n s m m' : Nat} {c : Int} (hpn : p ∣ n) (h : CtMod p n s m c)
    (hm : m ≡ m' [MOD p ^ s]) : CtMod p n s m' c := by
  obtain ⟨r, a, b⟩ := h
  refine ⟨r, a, b.trans ?_⟩
  exact (one_add_pow_period p (n : Int) (by exact_mod_cast hpn) s hm).mul_right _

/-- Fermat lifted: for a unit `ρ`, `ρ^(n^s (p-1)) = 1` modulo `p^(s+1)`. -/
theorem unit_pow (p q s : Nat) (hp : p.Prime) {ρ : Int} (h : IsCoprime ρ (p : Int)) :
    (ρ ^ (p * q) ^ s) ^ (p - 1) ≡ 1 [ZMOD (p : Int) ^ (s + 1)] := by
  have := Fact.mk hp
  have hf : ρ ^ (p - 1) ≡ 1 [ZMOD (p : Int)] := Int.ModEq.pow_card_sub_one_eq_one hp h
  have h1 : (ρ ^ (p - 1)) ^ p ^ s ≡ 1 [ZMOD (p : Int) ^ (s + 1)] := by
    have := dvd_sub_pow_of_dvd_sub (R := Int) (p := p) (a := ρ ^ (p - 1)) (b := 1)
      (by exact_mod_cast hf.symm.dvd) s
    rw [one_pow] at this
    exact (Int.modEq_iff_dvd.2 this).symm
  have e : (ρ ^ (p * q) ^ s) ^ (p - 1) = ((ρ ^ (p - 1)) ^ p ^ s) ^ q ^ s := by
    rw [← pow_mul, ← pow_mul, ← pow_mul, mul_pow]
    congr 1
    ring
  rw [e]
  simpa using h1.pow (q ^ s)

/-- Decryption of the prime part. -/
theorem PrimeCrypto.decrypt_spec {cfg : ExpCfg} {pc : PrimeCrypto} {p q s : Nat}
    (hg : pc.Good cfg p q s) {m : Nat} {c : Int} (hc : CtMod p (p * q) s m c) :
    ∃ r, pc.decrypt c = .ok r ∧ r ≡ (m : Int) [ZMOD (p : Int) ^ s] := by
  have hpp := hg.prime.two_le
  have hpos : (0 : Int) < p := by omega
  have hps1 : (0 : Int) < (p : Int) ^ (s + 1) := pow_pos hpos _
  obtain ⟨ρ, hρ, hcm⟩ := hc
  set n : Int := (p : Int) * q with hn
  have hnc : ((p * q : Nat) : Int) = n := by rw [hn]; push_cast; ring
  have hdvd : (p : Int) ∣ n := ⟨q, hn⟩
  set M := m * (p - 1) with hM
  set u := c ^ (p - 1) % (p : Int) ^ (s + 1) with hu
  have hum : u ≡ bsum n M s [ZMOD (p : Int) ^ (s + 1)] := by
    refine (emod_modEq _ _).trans ?_
    refine (hcm.pow (p - 1)).trans ?_
    rw [mul_pow, ← pow_mul, hnc]
    have h1 := (unit_pow p q s hg.prime hρ).mul_left ((1 + n) ^ (m * (p - 1)))
    rw [mul_one] at h1
    refine h1.trans ?_
    exact modEq_of_dvd' (pow_bsum n M s) (pow_dvd_pow_of_dvd hdvd _)
  -- the division is exact
  have hu1 : (p : Int) ∣ u - 1 := by
    have h1 : u ≡ 1 + n * lsum n M s [ZMOD (p : Int)] := by
      rw [← bsum_lsum]
      exact modEq_of_dvd' hum (dvd_pow_self _ (by omega))
    have h2 : (1 + n * lsum n M s) ≡ 1 [ZMOD (p : Int)] := by
      have : n * lsum n M s ≡ 0 [ZMOD (p : Int)] :=
        Int.modEq_zero_iff_dvd.2 (hdvd.mul_right _)
      simpa using this.add_left 1
    exact (h1.trans h2).symm.dvd
  obtain ⟨x, hx⟩ := hu1
  have hdiv : BN.div (u - 1) (p : Int) = .ok x := by
    unfold BN.div
    have : (u - 1).tmod (p : Int) = 0 := by rw [hx]; exact Int.mul_tmod_right _ _
    simp only [ne_of_gt hpos, if_false, this, ne_eq, not_true_eq_false]
    rw [hx, Int.mul_tdiv_cancel_left _ (ne_of_gt hpos)]
  have hxm : x ≡ (q : Int) * lsum n M s [ZMOD (p : Int) ^ s] := by
    have h1 := hum.dvd
    rw [bsum_lsum] at h1
    have h2 : 1 + n * lsum n M s - u = (p : Int) * ((q : Int) * lsum n M s - x) := by
      rw [hn] at *
      linear_combination -hx
    rw [h2, pow_succ, mul_comm ((p : Int) ^ s)] at h1
    exact Int.modEq_iff_dvd.2 (Int.dvd_of_mul_dvd_mul_left (ne_of_gt hpos) h1)
  set lu := x * pc.otherPrimeInv % (p : Int) ^ s with hlu
  have hlum : lu ≡ lsum n M s [ZMOD (p : Int) ^ s] := by
    refine (emod_modEq _ _).trans ((hxm.mul_right _).trans ?_)
    have := hg.oth.mul_right (lsum n M s)
    rw [one_mul] at this
    refine Int.ModEq.trans (meq_of_eq ?_) this
    ring
  obtain ⟨r, hr, hrm⟩ := PrimeCrypto.decOuter_spec pc (p : Int) n hdvd s M lu
    (fun i hi => hg.powers i (by omega)) hg.table hg.co hlum s 1 0 (le_refl _) (by omega)
    (by simpa using (Int.modEq_one : (0 : Int) ≡ (M : Int) [ZMOD 1]))
  refine ⟨r * pc.lambdaInv % (p : Int) ^ s, ?_, ?_⟩
  · unfold PrimeCrypto.decrypt PrimeCrypto.lFunc
    rw [hg.hphi, hg.hs, hg.powers _ (le_refl _), hg.powers s (by omega), hg.hp]
    have hmod : BN.modExp c ((p : Int) - 1) ((p : Int) ^ (s + 1)) = .ok u := by
      unfold BN.modExp
      have h1 : ¬ ((p : Int) - 1 < 0) := by omega
      have h2 : ((p : Int) - 1).toNat = p - 1 := by omega
      simp only [h1, if_false, ne_of_gt hps1, h2, hu]
    rw [hmod]
    simp only [Res.ok_bind, hdiv, Res.pure_eq]
    rw [← hlu, hr]
    rfl
  · refine (emod_modEq _ _).trans ((hrm.mul_right _).trans ?_)
    have := hg.lam.mul_left (m : Int)
    rw [mul_one] at this
    refine Int.ModEq.trans (meq_of_eq ?_) this
    rw [hM]
    push_cast [Nat.cast_sub (show 1 ≤ p by omega)]
    ring

/-- Encryption of the prime part. -/
theorem PrimeCrypto.encryptWithRand_spec {cfg : ExpCfg} {pc : PrimeCrypto} {p q s : Nat}
    (hg : pc.Good cfg p q s) (m : Nat) {r : Int} (hr : 0 ≤ r) :
    ∃ c, pc.encryptWithRand (m : Int) r = .ok c ∧
      c ≡ (1 + ((p * q : Nat) : Int)) ^ m * (pc.gP ^ r.toNat) ^ (p * q) ^ s
        [ZMOD (p : Int) ^ (s + 1)] := by
  have hpp := hg.prime.two_le
  have hpos : (0 : Int) < p := by omega
  have hps1 : (0 : Int) < (p : Int) ^ (s + 1) := pow_pos hpos _
  have hmod := FixedBaseExp.modExp_spec hps1 hg.fbe hr
  refine ⟨_, by unfold PrimeCrypto.encryptWithRand; rw [hmod]; rfl, ?_⟩
  rw [hg.hs, hg.powers _ (le_refl _)]
  refine (emod_modEq _ _).trans ?_
  apply Int.ModEq.mul
  · have h1 := binomialExpansion_spec (p : Int) ((p : Int) * q) hpos ⟨q, rfl⟩ s pc.precomp pc.powers
      hg.prelen hg.powers hg.pre hg.co (m : Int)
    refine h1.trans ?_
    have : (((m : Int) % (p : Int) ^ s).toNat) = m % p ^ s := by
      have : ((m : Int) % (p : Int) ^ s) = ((m % p ^ s : Nat) : Int) := by push_cast; rfl
      rw [this, Int.toNat_natCast]
    rw [this]
    push_cast
    exact one_add_pow_period p ((p : Int) * q) ⟨q, rfl⟩ s (Nat.mod_modEq _ _)
  · refine (emod_modEq _ _).trans ?_
    refine ((emod_modEq _ _).pow r.toNat).trans (meq_of_eq ?_)
    rw [← pow_mul, ← pow_mul, mul_comm]

end PJC
