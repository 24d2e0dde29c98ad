import Verif.Model.CamenischShoup
import Verif.Lemmas.PaillierKeys
namespace PJC.Cs
open PJC.DJ

/-- A successful `mapM`, element by element. -/
theorem mapM_ok_iff {α β : Type} {f : α → Res β} : ∀ {l : List α} {r : List β},
    l.mapM f = .ok r ↔ List.Forall₂ (fun a b => f a = .ok b) l r
  | [], r => by
    simp only [List.mapM_nil, Res.pure_eq, Res.ok.injEq, List.forall₂_nil_left_iff]
    exact eq_comm
  | a :: l, r => by
    simp only [List.mapM_cons, Res.bind_eq_ok, Res.pure_eq, Res.ok.injEq,
      List.forall₂_cons_left_iff]
    constructor
    · rintro ⟨b, hb, bs, hbs, rfl⟩
      exact ⟨b, bs, hb, mapM_ok_iff.1 hbs, rfl⟩
    · rintro ⟨b, bs, hb, hbs, rfl⟩
      exact ⟨b, hb, bs, mapM_ok_iff.2 hbs, rfl⟩

/-- Facts established by a successful construction. -/
structure PubGood (cfg : ExpCfg) (pk : CsPublic) (n s : Nat) (g : Int) (ys : List Int) : Prop where
  npos : 0 < n
  hn : pk.n = n
  hs : pk.s = s
  hlen : pk.len = ys.length
  powers : ∀ i ≤ s + 1, pk.powers.getD i 0 = (n : Int) ^ i
  hmod : pk.modulus = (n : Int) ^ (s + 1)
  co : ∀ i : Nat, 1 ≤ i → i ≤ s → IsCoprime (i : Int) (n : Int)
  prelen : pk.precomp.length = s + 1
  pre : ∀ k ≤ s, (k.factorial : Int) * pk.precomp.getD k 0 ≡ (n : Int) ^ k
    [ZMOD (n : Int) ^ (s + 1)]
  gF : FixedBaseExp.get cfg.flag cfg.radixBits g ((n : Int) ^ (s + 1)) = .ok pk.gFbe
  ysF : List.Forall₂
    (fun y f => FixedBaseExp.get cfg.flag cfg.radixBits y ((n : Int) ^ (s + 1)) = .ok f) ys
    pk.ysFbe
  hg : pk.g = g
  hys : pk.ys = ys
  hnToS : pk.nToS = (n : Int) ^ s

theorem newPublic_good {cfg : ExpCfg} {n s : Nat} {g : Int} {ys : List Int} {pk : CsPublic}
    (hpos : 0 < n) (h : newPublic cfg n s g ys = .ok pk) : PubGood cfg pk n s g ys := by
  unfold newPublic at h
  have hpos' : (0 : Int) < n := by omega
  have pw : ∀ i ≤ s + 1, (getPowers (n : Int) s).getD i 0 = (n : Int) ^ i :=
    fun i hi => getPowers_get _ _ _ hi
  have hps1 : (0 : Int) < (n : Int) ^ (s + 1) := pow_pos hpos' _
  simp only [pw _ (le_refl _), pw s (by omega), Res.bind_eq_ok, Res.pure_eq, Res.ok.injEq] at h
  obtain ⟨pre, hpre, gf, hgf, yf, hyf, rfl⟩ := h
  have hco : ∀ i : Nat, 1 ≤ i → i ≤ s → IsCoprime (i : Int) (n : Int) := by
    intro i h1 h2
    by_contra hcon
    have hgcd : Int.gcd (i : Int) ((n : Int) ^ (s + 1)) ≠ 1 := by
      intro hg1
      apply hcon
      have := Int.isCoprime_iff_gcd_eq_one.2 hg1
      exact (IsCoprime.pow_right_iff (by omega)).1 this
    have := getPrecomp_crash (n : Int) ((n : Int) ^ (s + 1)) s s 1 [1]
      ⟨i, h1, by omega, modInverse_value_crash hgcd⟩
    unfold getPrecomp at hpre
    rw [this] at hpre
    cases hpre
  have hgcds : ∀ k : Nat, 1 ≤ k → k ≤ s → Int.gcd (k : Int) ((n : Int) ^ (s + 1)) = 1 :=
    fun k h1 h2 => Int.isCoprime_iff_gcd_eq_one.1 ((hco k h1 h2).pow_right)
  obtain ⟨pre', hp1, hp2, hp3⟩ := getPrecomp_spec (n : Int) ((n : Int) ^ (s + 1)) s hps1 hgcds
  rw [hp1] at hpre
  obtain rfl : pre' = pre := by simpa using hpre
  exact ⟨hpos, rfl, rfl, rfl, pw, rfl, hco, hp2, hp3, hgf, mapM_ok_iff.1 hyf, rfl, rfl, rfl⟩

structure PrivGood (cfg : ExpCfg) (sk : CsPrivate) (n s : Nat) (g : Int) (ys xs : List Int) :
    Prop where
  pub : PubGood cfg sk.pub n s g ys
  hxs : sk.xs = xs
  hlen : ys.length = xs.length
  table : ∀ k j, 2 ≤ k → k ≤ j → j ≤ s → EntryOk (n : Int) (n : Int) k j (sk.table k j)

theorem newPrivate_good {cfg : ExpCfg} {n s : Nat} {g : Int} {ys xs : List Int} {sk : CsPrivate}
    (hpos : 0 < n) (h : newPrivate cfg n s g ys xs = .ok sk) : PrivGood cfg sk n s g ys xs := by
  unfold newPrivate at h
  simp only [Res.bind_eq_ok] at h
  obtain ⟨pub, hpub, tab, htab, h⟩ := h
  split at h
  · cases h
  rename_i hl
  simp only [Res.pure_eq, Res.ok.injEq] at h
  subst h
  have G := newPublic_good hpos hpub
  obtain ⟨t', ht1, ht2⟩ := getDecryptPrecomp_spec (n : Int) (n : Int) (by omega)
    pub.powers pub.precomp s G.powers G.pre G.co
  rw [ht1] at htab
  obtain rfl : t' = tab := by simpa using htab
  exact ⟨G, rfl, by simpa using hl, ht2⟩

theorem mapM_ok_of {α β : Type} {f : α → Res β} : ∀ {l : List α}, (∀ a ∈ l, ∃ b, f a = .ok b) →
    ∃ r, l.mapM f = .ok r
  | [], _ => ⟨[], rfl⟩
  | a :: l, h => by
    obtain ⟨b, hb⟩ := h a (by simp)
    obtain ⟨r, hr⟩ := mapM_ok_of (f := f) (l := l) (fun x hx => h x (by simp [hx]))
    exact ⟨b :: r, by simp [List.mapM_cons, hb, hr]⟩

theorem newPrivate_ok (cfg : ExpCfg) (n s : Nat) (g : Int) (ys xs : List Int) (hn : 1 < n)
    (hodd : n % 2 = 1) (hco : ∀ i : Nat, 1 ≤ i → i ≤ s → Nat.Coprime i n)
    (hg : 0 ≤ g ∧ g < (n : Int) ^ (s + 1)) (hy : ∀ y ∈ ys, 0 ≤ y ∧ y < (n : Int) ^ (s + 1))
    (hl : ys.length = xs.length) : ∃ sk, newPrivate cfg n s g ys xs = .ok sk := by
  have hpos : (0 : Int) < n := by omega
  have pw : ∀ i ≤ s + 1, (getPowers (n : Int) s).getD i 0 = (n : Int) ^ i :=
    fun i hi => getPowers_get _ _ _ hi
  have hps1 : (0 : Int) < (n : Int) ^ (s + 1) := pow_pos hpos _
  have hco' : ∀ i : Nat, 1 ≤ i → i ≤ s → IsCoprime (i : Int) (n : Int) :=
    fun i h1 h2 => Nat.isCoprime_iff_coprime.2 (hco i h1 h2)
  have hgcds : ∀ k : Nat, 1 ≤ k → k ≤ s → Int.gcd (k : Int) ((n : Int) ^ (s + 1)) = 1 :=
    fun k h1 h2 => Int.isCoprime_iff_gcd_eq_one.1 ((hco' k h1 h2).pow_right)
  obtain ⟨pre, hp1, _, hp3⟩ := getPrecomp_spec (n : Int) ((n : Int) ^ (s + 1)) s hps1 hgcds
  obtain ⟨t, ht1, _⟩ := getDecryptPrecomp_spec (n : Int) (n : Int) hpos
    (getPowers (n : Int) s) pre s pw hp3 hco'
  have hget : ∀ b, 0 ≤ b ∧ b < (n : Int) ^ (s + 1) →
      ∃ f, FixedBaseExp.get cfg.flag cfg.radixBits b ((n : Int) ^ (s + 1)) = .ok f := by
    intro b hb
    apply FixedBaseExp.get_ok
    intro _
    refine ⟨one_lt_pow₀ (by omega) (by omega), ?_, hb⟩
    have : (n : Int) % 2 = 1 := by omega
    have h2 := Int.ModEq.pow (s + 1) (show (n : Int) ≡ 1 [ZMOD 2] from this)
    rw [one_pow] at h2
    exact h2
  obtain ⟨gf, hgf⟩ := hget g hg
  obtain ⟨yf, hyf⟩ := mapM_ok_of (fun y hy' => hget y (hy y hy'))
  unfold newPrivate newPublic
  simp only [pw _ (le_refl _), pw s (by omega), hp1, Res.ok_bind, hgf, hyf, Res.pure_eq, ht1, hl,
    ne_eq, not_true_eq_false, if_false]
  exact ⟨_, rfl⟩

/-- One component: `e = (1+n)^m u^x`. -/
def Comp (n s : Nat) (u e x m : Int) : Prop :=
  ∃ M : Nat, (M : Int) ≡ m [ZMOD (n : Int) ^ s] ∧
    e ≡ (1 + (n : Int)) ^ M * u ^ x.toNat [ZMOD (n : Int) ^ (s + 1)]

theorem Comp.mul {n s : Nat} {u1 u2 e1 e2 x m1 m2 : Int} (h1 : Comp n s u1 e1 x m1)
    (h2 : Comp n s u2 e2 x m2) : Comp n s (u1 * u2) (e1 * e2) x (m1 + m2) := by
  obtain ⟨M1, a1, b1⟩ := h1
  obtain ⟨M2, a2, b2⟩ := h2
  refine ⟨M1 + M2, by push_cast; exact a1.add a2, (b1.mul b2).trans (meq_of_eq ?_)⟩
  rw [pow_add, mul_pow]; ring

theorem Comp.pow {n s : Nat} {u e x m : Int} (h : Comp n s u e x m) (k : Nat) :
    Comp n s (u ^ k) (e ^ k) x (m * k) := by
  obtain ⟨M, a, b⟩ := h
  refine ⟨M * k, by push_cast; exact a.mul_right _, (b.pow k).trans (meq_of_eq ?_)⟩
  rw [mul_pow, ← pow_mul, ← pow_mul, ← pow_mul, mul_comm k]

theorem Comp.congr {n s : Nat} {u u' e e' x m : Int} (h : Comp n s u e x m)
    (hu : u' ≡ u [ZMOD (n : Int) ^ (s + 1)]) (he : e' ≡ e [ZMOD (n : Int) ^ (s + 1)]) :
    Comp n s u' e' x m := by
  obtain ⟨M, a, b⟩ := h
  exact ⟨M, a, he.trans (b.trans ((hu.pow _).symm.mul_left _))⟩

/-- The message vector seen by the decryptor: entry `i`, or zero. -/
def CtOk (n s : Nat) (xs : List Int) (ms : Nat → Int) (ct : CsCt) : Prop :=
  IsCoprime ct.u (n : Int) ∧ ct.es.length = xs.length ∧
    ∀ i < xs.length, Comp n s ct.u (ct.es.getD i 0) (xs.getD i 0) (ms i)

/-! ### Decryption -/

theorem decInner_spec (sk : CsPrivate) (n : Int) (s M j : Nat) (i0 L : Int)
    (hj : 1 ≤ j) (hjs : j ≤ s) (hpow : sk.pub.powers.getD j 0 = n ^ j)
    (htab : ∀ k j, 2 ≤ k → k ≤ j → j ≤ s → EntryOk n n k j (sk.table k j))
    (hco : ∀ i : Nat, 1 ≤ i → i ≤ s → IsCoprime (i : Int) n)
    (hi : i0 ≡ (M : Int) [ZMOD n ^ (j - 1)]) :
    ∀ (cnt k : Nat) (mL t1 t2 : Int), 2 ≤ k → k + cnt = j + 1 → mL = i0 - ((k - 2 : Nat) : Int) →
      t2 ≡ ff i0 (k - 1) [ZMOD n ^ j] →
      t1 ≡ L - (lsum n M (k - 1) - (M : Int)) [ZMOD n ^ j] →
      ∃ r, decInner sk j cnt k mL t1 t2 = .ok r ∧
        r ≡ L - (lsum n M j - (M : Int)) [ZMOD n ^ j]
  | 0, k, mL, t1, t2, _, hc, _, _, h => ⟨t1, rfl, by
      have : k - 1 = j := by omega
      rwa [this] at h⟩
  | cnt + 1, k, mL, t1, t2, hk, hc, hmL, ht2, h => by
    unfold decInner
    obtain ⟨v, hv, hvm⟩ := htab k j hk (by omega) hjs
    have hget : sk.table.get k j = .ok v := by simp [Table.get, hv]
    simp only [hget, Res.ok_bind, hpow]
    have ht2' : t2 * (mL - 1) % n ^ j ≡ ff i0 k [ZMOD n ^ j] := by
      refine (emod_modEq _ _).trans ?_
      have e : ff i0 k = ff i0 (k - 1) * (mL - 1) := by
        obtain ⟨i, rfl⟩ : ∃ i, k = i + 2 := ⟨k - 2, by omega⟩
        rw [hmL]
        simp only [Nat.add_sub_cancel, Nat.add_succ_sub_one]
        rw [ff]
        push_cast
        ring
      rw [e]
      exact ht2.mul_right _
    apply decInner_spec sk n s M j i0 L hj hjs hpow htab hco hi cnt (k + 1)
    · omega
    · omega
    · rw [hmL]
      have : ((k + 1 - 2 : Nat) : Int) = ((k - 2 : Nat) : Int) + 1 := by omega
      rw [this]; ring
    · simpa using ht2'
    · have hterm := term_spec n n (dvd_refl _) M k j i0 _ v hk hj
        (factorial_coprime (fun i h1 h2 => hco i h1 (by omega))) hi ht2' hvm
      have := h.sub ((emod_modEq _ _).trans hterm)
      refine this.trans (meq_of_eq ?_)
      obtain ⟨i, rfl⟩ : ∃ i, k = i + 1 := ⟨k - 1, by omega⟩
      simp only [Nat.add_sub_cancel]
      rw [lsum_succ]
      ring

theorem decOuter_spec (sk : CsPrivate) (n : Nat) (h0 : 0 < n) (s M : Nat) (d : Int)
    (hn : sk.pub.n = n)
    (hpow : ∀ i ≤ s + 1, sk.pub.powers.getD i 0 = (n : Int) ^ i)
    (htab : ∀ k j, 2 ≤ k → k ≤ j → j ≤ s → EntryOk n n k j (sk.table k j))
    (hco : ∀ i : Nat, 1 ≤ i → i ≤ s → IsCoprime (i : Int) (n : Int))
    (hd : d ≡ (1 + (n : Int)) ^ M [ZMOD (n : Int) ^ (s + 1)]) :
    ∀ (cnt j : Nat) (mL : Int), 1 ≤ j → j + cnt = s + 1 →
      mL ≡ (M : Int) [ZMOD (n : Int) ^ (j - 1)] →
      ∃ r, decOuter sk d cnt j mL = .ok r ∧ r ≡ (M : Int) [ZMOD (n : Int) ^ s]
  | 0, j, mL, _, hc, h => ⟨mL, rfl, by
      have : j - 1 = s := by omega
      rwa [this] at h⟩
  | cnt + 1, j, mL, hj, hc, h => by
    have hpos : (0 : Int) < n := by omega
    unfold decOuter
    rw [hn, hpow (j + 1) (by omega)]
    set u := d % (n : Int) ^ (j + 1) with hu
    have hum : u ≡ 1 + n * lsum n M j [ZMOD (n : Int) ^ (j + 1)] := by
      rw [← bsum_lsum]
      refine (emod_modEq _ _).trans ?_
      exact (modEq_of_dvd' hd (pow_dvd_pow _ (by omega))).trans (pow_bsum (n : Int) M j)
    have hu1 : (n : Int) ∣ u - 1 := by
      have h1 : u ≡ 1 + n * lsum n M j [ZMOD (n : Int)] :=
        modEq_of_dvd' hum (dvd_pow_self _ (by omega))
      have h2 : (1 + n * lsum n M j) ≡ 1 [ZMOD (n : Int)] := by
        have : n * lsum n M j ≡ 0 [ZMOD (n : Int)] := Int.modEq_zero_iff_dvd.2 (Dvd.intro _ rfl)
        simpa using this.add_left 1
      exact (h1.trans h2).symm.dvd
    rw [if_neg (by simpa using Int.emod_eq_zero_of_dvd hu1)]
    obtain ⟨x, hx⟩ := hu1
    have hdiv : BN.div (u - 1) (n : Int) = .ok x := by
      unfold BN.div
      have : (u - 1).tmod (n : Int) = 0 := by rw [hx]; exact Int.mul_tmod_right _ _
      simp only [ne_of_gt hpos, if_false, this, ne_eq, not_true_eq_false]
      rw [hx, Int.mul_tdiv_cancel_left _ (ne_of_gt hpos)]
    have hxm : x ≡ lsum n M j [ZMOD (n : Int) ^ j] := by
      have h1 := hum.dvd
      have h2 : 1 + n * lsum n M j - u = (n : Int) * (lsum n M j - x) := by
        linear_combination -hx
      rw [h2, pow_succ, mul_comm ((n : Int) ^ j)] at h1
      exact Int.modEq_iff_dvd.2 (Int.dvd_of_mul_dvd_mul_left (ne_of_gt hpos) h1)
    obtain ⟨r, hr, hrm⟩ := decInner_spec sk (n : Int) s M j mL (lsum n M j) hj (by omega)
      (hpow j (by omega)) htab hco h (j - 1) 2 mL x mL (le_refl _) (by omega) (by simp)
      (by simp [ff]) (by
        refine hxm.trans (meq_of_eq ?_)
        simp [lsum])
    simp only [hdiv, hr, Res.ok_bind]
    apply decOuter_spec sk n h0 s M d hn hpow htab hco hd cnt (j + 1) r (by omega) (by omega)
    simp only [Nat.add_sub_cancel]
    refine hrm.trans (meq_of_eq ?_)
    ring

/-- Decryption of one component. -/
theorem decComp_spec {cfg : ExpCfg} {sk : CsPrivate} {n s : Nat} {g : Int} {ys xs : List Int}
    (G : PrivGood cfg sk n s g ys xs) {u e x m : Int} (hu : IsCoprime u (n : Int)) (hx : 0 ≤ x)
    (hc : Comp n s u e x m) :
    ∃ ux inv d r, BN.modExp u x sk.pub.modulus = .ok ux ∧
      BN.modInverse ux sk.pub.modulus = .ok inv ∧ BN.modMul e inv sk.pub.modulus = .ok d ∧
      decOuter sk d sk.pub.s 1 0 = .ok r ∧
      r % sk.pub.powers.getD sk.pub.s 0 = m % (n : Int) ^ s := by
  have P := G.pub
  have hpos : (0 : Int) < n := by have := P.npos; omega
  have hps1 : (0 : Int) < (n : Int) ^ (s + 1) := pow_pos hpos _
  rw [P.hmod, P.hs, P.powers s (by omega)]
  obtain ⟨M, hM, he⟩ := hc
  have huxc : IsCoprime (u ^ x.toNat % (n : Int) ^ (s + 1)) ((n : Int) ^ (s + 1)) :=
    isCoprime_of_modEq (emod_modEq _ _).symm (hu.pow)
  have hgcd := Int.isCoprime_iff_gcd_eq_one.1 huxc
  obtain ⟨hi1, _, _⟩ := BN.inv_spec hps1 hgcd
  set ux := u ^ x.toNat % (n : Int) ^ (s + 1)
  have hd : e * BN.inv ux ((n : Int) ^ (s + 1)) % (n : Int) ^ (s + 1) ≡ (1 + (n : Int)) ^ M
      [ZMOD (n : Int) ^ (s + 1)] := by
    refine (emod_modEq _ _).trans ?_
    refine (he.mul_right _).trans ?_
    have h1 : u ^ x.toNat * BN.inv ux ((n : Int) ^ (s + 1)) ≡ 1 [ZMOD (n : Int) ^ (s + 1)] :=
      ((emod_modEq (u ^ x.toNat) ((n : Int) ^ (s + 1))).symm.mul_right _).trans hi1
    have := h1.mul_left ((1 + (n : Int)) ^ M)
    rw [mul_one] at this
    rw [mul_assoc]
    exact this
  obtain ⟨r, hr, hrm⟩ := decOuter_spec sk n P.npos s M _ P.hn P.powers G.table P.co hd s 1 0
    (le_refl _) (by omega) (by simpa using (Int.modEq_one : (0 : Int) ≡ (M : Int) [ZMOD 1]))
  refine ⟨ux, _, _, r, ?_, BN.modInverse_ok hps1 hgcd, ?_, hr, ?_⟩
  · unfold BN.modExp
    rw [if_neg (by omega), if_neg (ne_of_gt hps1)]
  · unfold BN.modMul BN.mod
    rw [if_neg (ne_of_gt hps1)]
  · exact (hrm.trans hM)

theorem decLoop_spec {cfg : ExpCfg} {sk : CsPrivate} {n s : Nat} {g : Int} {ys xs0 : List Int}
    (G : PrivGood cfg sk n s g ys xs0) {u : Int} (hu : IsCoprime u (n : Int)) :
    ∀ (es xs : List Int) (ms : Nat → Int), es.length = xs.length → (∀ x ∈ xs, 0 ≤ x) →
      (∀ i < xs.length, Comp n s u (es.getD i 0) (xs.getD i 0) (ms i)) →
      decLoop sk u es xs = .ok ((List.range xs.length).map fun i => ms i % (n : Int) ^ s)
  | [], [], ms, _, _, _ => by simp [decLoop]
  | [], x :: xs, ms, h, _, _ => by simp at h
  | e :: es, [], ms, h, _, _ => by simp at h
  | e :: es, x :: xs, ms, hl, hx, hc => by
    obtain ⟨ux, inv, d, r, h1, h2, h3, h4, h5⟩ := decComp_spec G hu (hx x (by simp))
      (by simpa using hc 0 (by simp))
    have ih := decLoop_spec G hu es xs (fun i => ms (i + 1)) (by simpa using hl)
      (fun y hy => hx y (by simp [hy])) (fun i hi => by
        simpa using hc (i + 1) (by simp; omega))
    unfold decLoop
    simp only [h1, h2, h3, h4, ih, Res.ok_bind, h5, Res.pure_eq, List.length_cons,
      List.range_succ_eq_map, List.map_cons, List.map_map]
    rfl

theorem decrypt_spec {cfg : ExpCfg} {sk : CsPrivate} {n s : Nat} {g : Int} {ys xs : List Int}
    (G : PrivGood cfg sk n s g ys xs) (hx : ∀ x ∈ xs, 0 ≤ x) {ms : Nat → Int} {ct : CsCt}
    (hc : CtOk n s xs ms ct) :
    decrypt sk ct = .ok ((List.range xs.length).map fun i => ms i % (n : Int) ^ s) := by
  unfold decrypt
  rw [if_neg (by rw [hc.2.1, G.pub.hlen, G.hlen]; simp), G.hxs]
  exact decLoop_spec G hc.1 ct.es xs ms hc.2.1 hx hc.2.2

/-! ### Encryption -/

theorem encLoop_spec {cfg : ExpCfg} {pk : CsPublic} {n s : Nat} {g : Int} {ys0 : List Int}
    (G : PubGood cfg pk n s g ys0) {r : Int} (hr : 0 ≤ r) :
    ∀ (ys : List Int) (fs : List FixedBaseExp) (ms : List Int),
      List.Forall₂
        (fun y f => FixedBaseExp.get cfg.flag cfg.radixBits y ((n : Int) ^ (s + 1)) = .ok f) ys
        fs →
      ∃ es, encLoop pk r fs ms = .ok es ∧ es.length = ys.length ∧
        (∀ e ∈ es, 0 ≤ e ∧ e < (n : Int) ^ (s + 1)) ∧
        ∀ i < ys.length, es.getD i 0 ≡ (ys.getD i 0) ^ r.toNat *
          (1 + (n : Int)) ^ (ms.getD i 0 % (n : Int) ^ s).toNat [ZMOD (n : Int) ^ (s + 1)]
  | [], fs, ms, h => by
    cases h
    exact ⟨[], rfl, rfl, by simp, by simp⟩
  | y :: ys, fs, ms, h => by
    obtain ⟨f, fs', hf, hfs, rfl⟩ := List.forall₂_cons_left_iff.1 h
    have hpos : (0 : Int) < n := by have := G.npos; omega
    have hps1 : (0 : Int) < (n : Int) ^ (s + 1) := pow_pos hpos _
    obtain ⟨es, h1, h2, h4, h3⟩ := encLoop_spec G hr ys fs' ms.tail hfs
    have hm := FixedBaseExp.modExp_spec hps1 hf hr
    unfold encLoop
    simp only [hm, h1, Res.ok_bind, Res.pure_eq, G.hmod]
    refine ⟨_, rfl, by simp [h2], ?_, ?_⟩
    · intro e he
      rcases List.mem_cons.1 he with rfl | he
      · cases ms with
        | nil => exact ⟨Int.emod_nonneg _ (ne_of_gt hps1), Int.emod_lt_of_pos _ hps1⟩
        | cons m ms => exact ⟨Int.emod_nonneg _ (ne_of_gt hps1), Int.emod_lt_of_pos _ hps1⟩
      · exact h4 e he
    · intro i hi
      cases i with
      | zero =>
        cases ms with
        | nil =>
          simp only [List.getD_cons_zero, List.getD_nil]
          have : ((0 : Int) % (n : Int) ^ s).toNat = 0 := by simp
          rw [this, pow_zero, mul_one]
          exact emod_modEq _ _
        | cons m ms =>
          simp only [List.getD_cons_zero]
          refine (emod_modEq _ _).trans ((emod_modEq _ _).mul ?_)
          exact binomialExpansion_spec (n : Int) (n : Int) hpos (dvd_refl _) s pk.precomp
            pk.powers G.prelen G.powers G.pre G.co m
      | succ i =>
        have := h3 i (by simpa using hi)
        simp only [List.getD_cons_succ]
        cases ms with
        | nil => simpa using this
        | cons m ms => simpa using this

/-- A key pair: `g` and `ys[i] = g ^ xs[i]` modulo `n^(s+1)`. -/
structure KeyRel (n s : Nat) (g : Int) (ys xs : List Int) : Prop where
  gco : IsCoprime g (n : Int)
  len : ys.length = xs.length
  nonneg : ∀ x ∈ xs, 0 ≤ x
  rel : ∀ i < xs.length, ys.getD i 0 ≡ g ^ (xs.getD i 0).toNat [ZMOD (n : Int) ^ (s + 1)]

theorem encryptWithRand_spec {cfg : ExpCfg} {pk : CsPublic} {n s : Nat} {g : Int}
    {ys xs : List Int} (G : PubGood cfg pk n s g ys) (K : KeyRel n s g ys xs) {ms : List Int}
    {r : Int} (hms : ms.length ≤ ys.length) (hr : 0 ≤ r)
    (hrn : Int.gcd r n = 1 ∨ r = 0) :
    ∃ ct, encryptWithRand pk ms r = .ok ct ∧ CtOk n s xs (fun i => ms.getD i 0) ct ∧
      0 ≤ ct.u ∧ ct.u < (n : Int) ^ (s + 1) ∧ (∀ e ∈ ct.es, 0 ≤ e ∧ e < (n : Int) ^ (s + 1)) := by
  have hpos : (0 : Int) < n := by have := G.npos; omega
  have hps1 : (0 : Int) < (n : Int) ^ (s + 1) := pow_pos hpos _
  have hfl : pk.ysFbe.length = ys.length := (G.ysF.length_eq).symm
  obtain ⟨es, h1, h2, h4, h3⟩ := encLoop_spec G hr ys pk.ysFbe ms G.ysF
  have hg := FixedBaseExp.modExp_spec hps1 G.gF hr
  refine ⟨⟨g ^ r.toNat % (n : Int) ^ (s + 1), es⟩, ?_, ⟨?_, ?_, ?_⟩,
    Int.emod_nonneg _ (ne_of_gt hps1), Int.emod_lt_of_pos _ hps1, h4⟩
  · unfold encryptWithRand
    rw [if_neg (by omega), if_neg (by rw [G.hn]; rintro (h | ⟨h, h'⟩); omega; tauto), hg]
    simp only [Res.ok_bind, h1, Res.pure_eq]
  · exact isCoprime_of_modEq (modEq_of_dvd' (emod_modEq _ _) (dvd_pow_self _ (by omega))).symm
      K.gco.pow_left
  · rw [← K.len]; exact h2
  · intro i hi
    refine ⟨_, emod_pow_toNat n s G.npos (ms.getD i 0), ?_⟩
    refine (h3 i (by rw [K.len]; exact hi)).trans ?_
    rw [mul_comm]
    apply Int.ModEq.mul_left
    refine ((K.rel i hi).pow _).trans ?_
    refine Int.ModEq.trans (meq_of_eq ?_) ((emod_modEq _ _).pow _).symm
    rw [← pow_mul, ← pow_mul, mul_comm]

/-! ### Homomorphic operations -/

theorem add_spec {cfg : ExpCfg} {pk : CsPublic} {n s : Nat} {g : Int} {ys xs : List Int}
    (G : PubGood cfg pk n s g ys) (hl : ys.length = xs.length) {m1 m2 : Nat → Int}
    {c1 c2 : CsCt} (h1 : CtOk n s xs m1 c1) (h2 : CtOk n s xs m2 c2) :
    ∃ c, add pk c1 c2 = .ok c ∧ CtOk n s xs (fun i => m1 i + m2 i) c := by
  have hpos : (0 : Int) < n := by have := G.npos; omega
  have hps1 : (0 : Int) < (n : Int) ^ (s + 1) := pow_pos hpos _
  obtain ⟨u1, l1, r1⟩ := h1
  obtain ⟨u2, l2, r2⟩ := h2
  have hz : (c1.es.zip c2.es).mapM (fun e => BN.modMul e.1 e.2 pk.modulus) =
      .ok ((c1.es.zip c2.es).map fun e => e.1 * e.2 % (n : Int) ^ (s + 1)) := by
    rw [mapM_ok_iff, List.forall₂_map_right_iff]
    apply List.forall₂_same.2
    intro e _
    simp [BN.modMul, BN.mod, G.hmod, ne_of_gt G.npos]
  refine ⟨⟨c1.u * c2.u % (n : Int) ^ (s + 1),
    (c1.es.zip c2.es).map fun e => e.1 * e.2 % (n : Int) ^ (s + 1)⟩, ?_, ?_, ?_, ?_⟩
  · unfold add
    rw [if_neg (by omega), if_neg (by rw [G.hlen]; omega), hz]
    simp [BN.modMul, BN.mod, G.hmod, ne_of_gt G.npos]
  · exact isCoprime_of_modEq (modEq_of_dvd' (emod_modEq _ _) (dvd_pow_self _ (by omega))).symm
      (u1.mul_left u2)
  · simp [l1, l2]
  · intro i hi
    have e1 : ((c1.es.zip c2.es).map fun e => e.1 * e.2 % (n : Int) ^ (s + 1)).getD i 0 =
        c1.es.getD i 0 * c2.es.getD i 0 % (n : Int) ^ (s + 1) := by
      rw [List.getD_eq_getElem _ _ (by simp [l1, l2, hi]),
        List.getD_eq_getElem _ _ (by omega), List.getD_eq_getElem _ _ (by omega)]
      simp
    simp only
    rw [e1]
    exact ((r1 i hi).mul (r2 i hi)).congr (emod_modEq _ _) (emod_modEq _ _)

theorem multiplyLoop_spec {k modulus : Int} (hk : 0 ≤ k) (hm : 0 < modulus) :
    ∀ (n : Nat) (es : List Int), n ≤ es.length →
      multiplyLoop k modulus n es = .ok ((es.take n).map fun e => e ^ k.toNat % modulus)
  | 0, es, _ => by simp [multiplyLoop]
  | n + 1, [], h => by simp at h
  | n + 1, e :: es, h => by
    have ih := multiplyLoop_spec hk hm n es (by simpa using h)
    simp [multiplyLoop, BN.modExp, not_lt.2 hk, ne_of_gt hm, ih]

theorem multiply_spec {cfg : ExpCfg} {pk : CsPublic} {n s : Nat} {g : Int} {ys xs : List Int}
    (G : PubGood cfg pk n s g ys) (hl : ys.length = xs.length) {m : Nat → Int} {c : CsCt} {k : Int}
    (h : CtOk n s xs m c) (hk : 0 ≤ k) :
    ∃ c', multiply pk c k = .ok c' ∧ CtOk n s xs (fun i => m i * k) c' := by
  have hpos : (0 : Int) < n := by have := G.npos; omega
  have hps1 : (0 : Int) < (n : Int) ^ (s + 1) := pow_pos hpos _
  obtain ⟨u1, l1, r1⟩ := h
  obtain ⟨K, rfl⟩ := Int.eq_ofNat_of_zero_le hk
  have hlen : pk.len = c.es.length := by rw [G.hlen]; omega
  refine ⟨⟨c.u ^ K % (n : Int) ^ (s + 1), c.es.map fun e => e ^ K % (n : Int) ^ (s + 1)⟩,
    ?_, ?_, ?_, ?_⟩
  · unfold multiply
    rw [G.hmod, multiplyLoop_spec hk hps1 _ _ (le_of_eq hlen)]
    simp [BN.modExp, ne_of_gt G.npos, hlen, show ¬ ((K : Int) < 0) by omega]
  · exact isCoprime_of_modEq (modEq_of_dvd' (emod_modEq _ _) (dvd_pow_self _ (by omega))).symm
      u1.pow_left
  · simp [l1]
  · intro i hi
    have e1 : (c.es.map fun e => e ^ K % (n : Int) ^ (s + 1)).getD i 0 =
        c.es.getD i 0 ^ K % (n : Int) ^ (s + 1) := by
      rw [List.getD_eq_getElem _ _ (by simp [l1, hi]), List.getD_eq_getElem _ _ (by omega)]
      simp
    simp only
    rw [e1]
    exact ((r1 i hi).pow K).congr (emod_modEq _ _) (emod_modEq _ _)

/-! ### Decryption never aborts -/

theorem decInner_ok (sk : CsPrivate) (n : Int) (s j : Nat) (hjs : j ≤ s)
    (htab : ∀ k j, 2 ≤ k → k ≤ j → j ≤ s → EntryOk n n k j (sk.table k j)) :
    ∀ (cnt k : Nat) (mL t1 t2 : Int), 2 ≤ k → k + cnt ≤ j + 1 →
      ∃ r, decInner sk j cnt k mL t1 t2 = .ok r
  | 0, k, mL, t1, t2, _, _ => ⟨t1, rfl⟩
  | cnt + 1, k, mL, t1, t2, hk, hc => by
    obtain ⟨v, hv, -⟩ := htab k j hk (by omega) hjs
    have hget : sk.table.get k j = .ok v := by simp [Table.get, hv]
    unfold decInner
    simp only [hget, Res.ok_bind]
    exact decInner_ok sk n s j hjs htab cnt (k + 1) _ _ _ (by omega) (by omega)

theorem decOuter_safe (sk : CsPrivate) (n s : Nat) (h0 : 0 < n) (hn : sk.pub.n = n) (d : Int)
    (htab : ∀ k j, 2 ≤ k → k ≤ j → j ≤ s → EntryOk n n k j (sk.table k j)) :
    ∀ (cnt j : Nat) (mL : Int), 1 ≤ j → j + cnt ≤ s + 1 →
      (∃ r, decOuter sk d cnt j mL = .ok r) ∨ decOuter sk d cnt j mL = .err .invalidArgument
  | 0, j, mL, _, _ => Or.inl ⟨mL, rfl⟩
  | cnt + 1, j, mL, hj, hc => by
    unfold decOuter
    by_cases hz : (d % sk.pub.powers.getD (j + 1) 0 - 1) % sk.pub.n ≠ 0
    · right
      simp only [hz, ne_eq, not_false_eq_true, if_true]
    · simp only [ne_eq, not_not] at hz
      simp only [hz, ne_eq, not_true_eq_false, if_false]
      rw [hn] at hz
      have hpos : (0 : Int) < n := by omega
      obtain ⟨x, hx⟩ := Int.dvd_of_emod_eq_zero hz
      have hdiv : BN.div (d % sk.pub.powers.getD (j + 1) 0 - 1) sk.pub.n = .ok x := by
        unfold BN.div
        rw [hn]
        have : (d % sk.pub.powers.getD (j + 1) 0 - 1).tmod (n : Int) = 0 := by
          rw [hx]; exact Int.mul_tmod_right _ _
        simp only [ne_of_gt hpos, if_false, this, ne_eq, not_true_eq_false]
        rw [hx, Int.mul_tdiv_cancel_left _ (ne_of_gt hpos)]
      obtain ⟨r, hr⟩ := decInner_ok sk (n : Int) s j (by omega) htab (j - 1) 2 mL x mL (le_refl _)
        (by omega)
      simp only [hdiv, hr, Res.ok_bind]
      exact decOuter_safe sk n s h0 hn d htab cnt (j + 1) r (by omega) (by omega)

theorem decLoop_safe {cfg : ExpCfg} {sk : CsPrivate} {n s : Nat} {g : Int} {ys xs0 : List Int}
    (G : PrivGood cfg sk n s g ys xs0) (u : Int) :
    ∀ (es xs : List Int), (∀ x ∈ xs, 0 ≤ x) →
      (∃ r, decLoop sk u es xs = .ok r) ∨ decLoop sk u es xs = .err .invalidArgument
  | [], _, _ => Or.inl ⟨[], by simp [decLoop]⟩
  | _ :: _, [], _ => Or.inl ⟨[], by simp [decLoop]⟩
  | e :: es, x :: xs, hx => by
    have P := G.pub
    have hpos : (0 : Int) < n := by have := P.npos; omega
    have hps1 : (0 : Int) < (n : Int) ^ (s + 1) := pow_pos hpos _
    have hx0 : ¬ x < 0 := by have := hx x (by simp); omega
    have hm1 : BN.modExp u x sk.pub.modulus = .ok (u ^ x.toNat % (n : Int) ^ (s + 1)) := by
      unfold BN.modExp
      rw [if_neg hx0, P.hmod, if_neg (ne_of_gt hps1)]
    unfold decLoop
    simp only [hm1, Res.ok_bind]
    by_cases hg : Int.gcd (u ^ x.toNat % (n : Int) ^ (s + 1)) ((n : Int) ^ (s + 1)) = 1
    · have hmm : ∀ v, BN.modMul e v sk.pub.modulus = .ok (e * v % (n : Int) ^ (s + 1)) := by
        intro v
        unfold BN.modMul BN.mod
        rw [P.hmod, if_neg (ne_of_gt hps1)]
      rw [P.hmod, BN.modInverse_ok hps1 hg]
      rw [P.hmod] at hmm
      simp only [Res.ok_bind, hmm, P.hs]
      rcases decOuter_safe sk n s P.npos P.hn
        (e * BN.inv (u ^ x.toNat % (n : Int) ^ (s + 1)) ((n : Int) ^ (s + 1))
          % (n : Int) ^ (s + 1)) G.table s 1 0 (le_refl _) (by omega) with ⟨r, hr⟩ | hr
      · rw [hr]
        simp only [Res.ok_bind]
        rcases decLoop_safe G u es xs (fun y hy => hx y (by simp [hy])) with ⟨r', hr'⟩ | hr'
        · rw [hr']; exact Or.inl ⟨_, rfl⟩
        · rw [hr']; exact Or.inr rfl
      · rw [hr]; exact Or.inr rfl
    · rw [P.hmod, modInverse_value_crash hg]
      exact Or.inr rfl

end PJC.Cs
