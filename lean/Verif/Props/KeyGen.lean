import Verif.Model.KeyGen
import Verif.Props.Paillier
import Verif.Props.CamenischShoup
/-
Properties C79-C80: key generation from safe primes, and keys passed on as protos.
-/
namespace PJC.Props
open PJC

/-- What the library promises about `GenerateSafePrime(bits)`: if it returns, then a safe prime
of exactly this many bits (with a small generator, see `HasSmallGenerator`); otherwise it aborts. -/
def SafePrimes (gen : Int → Nat → Res Int) : Prop :=
  ∀ bits i, gen bits i = .crash ∨ ∃ p : Nat, gen bits i = .ok (p : Int) ∧ SafePrime p ∧
    HasSmallGenerator p ∧ 2 ^ (bits.toNat - 1) ≤ p ∧ p < 2 ^ bits.toNat

theorem drawOther_ok {gen : Nat → Res Int} {p : Int} : ∀ {fuel i : Nat} {q : Int},
    drawOther gen p fuel i = some (.ok q) → p ≠ q ∧ ∃ j, i ≤ j ∧ gen j = .ok q
  | 0, _, _, h => by simp [drawOther] at h
  | fuel + 1, i, q, h => by
    unfold drawOther at h
    split at h
    · rename_i q' hq'
      split at h
      · obtain ⟨h1, j, hj, h2⟩ := drawOther_ok h
        exact ⟨h1, j, by omega, h2⟩
      · rename_i hne
        simp only [Option.some.injEq, Res.ok.injEq] at h
        subst h
        exact ⟨hne, i, le_refl _, hq'⟩
    all_goals simp at h

theorem drawOther_loop {gen : Nat → Res Int} {p q : Int} (hne : p ≠ q) : ∀ (k fuel i : Nat),
    k < fuel → (∀ j < k, gen (i + j) = .ok p) → gen (i + k) = .ok q →
    drawOther gen p fuel i = some (.ok q)
  | 0, fuel + 1, i, _, _, hq => by
    simp only [Nat.add_zero] at hq
    simp [drawOther, hq, hne]
  | k + 1, fuel + 1, i, hk, hp, hq => by
    have h0 := hp 0 (by omega)
    simp only [Nat.add_zero] at h0
    simp only [drawOther, h0, if_true]
    apply drawOther_loop hne k fuel (i + 1) (by omega)
    · intro j hj
      rw [Nat.add_assoc, Nat.add_comm 1 j]
      exact hp (j + 1) (by omega)
    · rw [Nat.add_assoc, Nat.add_comm 1 k]
      exact hq

theorem drawOther_none {gen : Nat → Res Int} {p : Int} (h : ∀ i, gen i = .ok p) :
    ∀ fuel i, drawOther gen p fuel i = none
  | 0, _ => rfl
  | fuel + 1, i => by
    simp only [drawOther, h, if_true]
    exact drawOther_none h fuel (i + 1)

theorem tdiv_two {m : Int} (h : 0 ≤ m) : m.tdiv 2 = m / 2 := Int.tdiv_eq_ediv_of_nonneg h

theorem tdiv_two_pos (m : Int) : m.tdiv 2 ≤ 0 ↔ m < 2 := by
  rcases lt_or_ge m 0 with h | h
  · have h2 : m.tdiv 2 ≤ 0 := by
      have := Int.tdiv_nonneg (a := -m) (b := 2) (by omega) (by omega)
      rw [Int.neg_tdiv] at this
      omega
    constructor <;> intro <;> omega
  · rw [tdiv_two h]
    omega

theorem paillierProtos_ok (p q : Nat) (s : Int) :
    paillierProtos p q s = .ok (⟨BN.natToBytes (p * q), s⟩, ⟨BN.natToBytes p, BN.natToBytes q, s⟩) := by
  unfold paillierProtos
  dsimp only
  have h : (0 : Int) ≤ (p : Int) * q := by positivity
  rw [BN.toBytes_of_nonneg (by omega), BN.toBytes_of_nonneg (by omega), BN.toBytes_of_nonneg h]
  simp only [Res.ok_bind, Res.pure_eq, Int.toNat_natCast]
  rw [show ((p : Int) * q).toNat = p * q by rw [← Nat.cast_mul, Int.toNat_natCast]]

/-- **C79**, refusal: `GeneratePaillierKeyPair` refuses exactly modulus lengths below 2 and
parameters `s` below 1. -/
theorem C79_refuses (gen : Int → Nat → Res Int) (hg : SafePrimes gen) (fuel : Nat)
    (modulusLength s : Int) :
    (∃ c, generatePaillierKeyPair gen fuel modulusLength s = some (.err c)) ↔
      modulusLength < 2 ∨ s < 1 := by
  have hb := tdiv_two_pos modulusLength
  unfold generatePaillierKeyPair
  dsimp only
  constructor
  · rintro ⟨c, hc⟩
    by_contra hcon
    push Not at hcon
    rw [if_neg (by rw [hb]; omega)] at hc
    obtain h | ⟨p, h, -⟩ := hg (modulusLength.tdiv 2) 0
    · simp [h] at hc
    · rw [h] at hc
      simp only [Option.map_eq_some_iff] at hc
      obtain ⟨r, hr, hc⟩ := hc
      have hnoerr : ∀ fuel i, drawOther (gen (modulusLength.tdiv 2)) p fuel i = none ∨
          drawOther (gen (modulusLength.tdiv 2)) p fuel i = some .crash ∨
          ∃ q : Nat, drawOther (gen (modulusLength.tdiv 2)) p fuel i = some (.ok (q : Int)) := by
        intro fuel
        induction fuel with
        | zero => intro i; exact Or.inl rfl
        | succ f ih =>
          intro i
          obtain h | ⟨q, h, -⟩ := hg (modulusLength.tdiv 2) i
          · right; left; simp [drawOther, h]
          · by_cases e : (p : Int) = q
            · simp only [drawOther, h, e, if_true]
              rw [← e]
              exact ih (i + 1)
            · right; right; exact ⟨q, by simp only [drawOther, h, e, if_false]⟩
      obtain h' | h' | ⟨q, h'⟩ := hnoerr fuel 1
      · simp [h'] at hr
      · rw [h', Option.some.injEq] at hr
        subst hr
        cases hc
      · rw [h', Option.some.injEq] at hr
        subst hr
        have := paillierProtos_ok p q s
        change paillierProtos p q s = _ at hc
        rw [this] at hc
        cases hc
  · intro h
    refine ⟨.invalidArgument, ?_⟩
    rw [if_pos (by rw [hb]; omega)]

/-- **C79**: whatever `GeneratePaillierKeyPair` returns is a matching key pair for a modulus of
the requested size: it is the product of two different safe primes of half the length each, the
objects made from the two protos exist (for any `s` below the primes), and the private one decrypts
every encryption made by either of them. -/
theorem C79_generated_keys_work (gen : Int → Nat → Res Int) (hg : SafePrimes gen) (fuel : Nat)
    (modulusLength s : Int) (pub : PaillierPublicKeyProto) (priv : PaillierPrivateKeyProto)
    (h : generatePaillierKeyPair gen fuel modulusLength s = some (.ok (pub, priv))) :
    ∃ p q : Nat, SafePrime p ∧ SafePrime q ∧ p ≠ q ∧
      2 ^ ((modulusLength / 2).toNat - 1) ≤ p ∧ p < 2 ^ (modulusLength / 2).toNat ∧
      2 ^ ((modulusLength / 2).toNat - 1) ≤ q ∧ q < 2 ^ (modulusLength / 2).toNat ∧
      BN.ofBytes pub.n = p * q ∧ BN.ofBytes priv.p = p ∧ BN.ofBytes priv.q = q ∧
      pub.s = s ∧ priv.s = s ∧
      (s < 2 ^ ((modulusLength / 2).toNat - 1) → ∀ (cfg cfg' : ExpCfg) (x : Int),
        Int.gcd x ((p * q : Nat) : Int) = 1 →
        ∃ pk sk, PublicPaillier.ofProto cfg x pub = .ok pk ∧
          PrivatePaillier.ofProto cfg' priv = .ok sk ∧
          ∀ m, 0 ≤ m → m < ((p * q : Nat) : Int) ^ s.toNat →
            (∀ r, 0 ≤ r → r < ((p * q : Nat) : Int) →
              ∃ c, pk.encrypt m r = .ok c ∧ sk.decrypt c = .ok m) ∧
            (∀ rp rq, 0 ≤ rp → 0 ≤ rq →
              ∃ c, sk.encrypt m rp rq = .ok c ∧ sk.decrypt c = .ok m)) := by
  unfold generatePaillierKeyPair at h
  dsimp only at h
  split at h
  · simp at h
  · rename_i hb
    push Not at hb
    have hdiv : modulusLength.tdiv 2 = modulusLength / 2 := by
      apply tdiv_two
      by_contra hcon
      have := (tdiv_two_pos modulusLength).2 (by omega)
      omega
    rw [hdiv] at h hb
    obtain h0 | ⟨p, h0, Sp, gp, lp, up⟩ := hg (modulusLength / 2) 0
    · simp [h0] at h
    · rw [h0] at h
      simp only [Option.map_eq_some_iff] at h
      obtain ⟨r, hr, h⟩ := h
      obtain ⟨q', hq', h⟩ := Res.bind_eq_ok.1 h
      subst hq'
      obtain ⟨hne, j, -, hj⟩ := drawOther_ok hr
      obtain h1 | ⟨q, h1, Sq, gq, lq, uq⟩ := hg (modulusLength / 2) j
      · simp [h1] at hj
      · rw [h1, Res.ok.injEq] at hj
        subst hj
        change paillierProtos p q s = _ at h
        rw [paillierProtos_ok] at h
        simp only [Res.ok.injEq, Prod.mk.injEq] at h
        obtain ⟨rfl, rfl⟩ := h
        have hpq : p ≠ q := by intro e; exact hne (by rw [e])
        refine ⟨p, q, Sp, Sq, hpq, lp, up, lq, uq, ?_, BN.ofBytes_natToBytes p,
          BN.ofBytes_natToBytes q, rfl, rfl, ?_⟩
        · rw [BN.ofBytes_natToBytes]; push_cast; rfl
        · intro hs cfg cfg' x hx
          obtain ⟨S, rfl⟩ := Int.eq_ofNat_of_zero_le (show 0 ≤ s by omega)
          have hs' : S < 2 ^ ((modulusLength / 2).toNat - 1) := by exact_mod_cast hs
          have hS : 1 ≤ S := by omega
          obtain ⟨⟨pk, hpk⟩, -⟩ := C11_keys_exist cfg p q S x Sp Sq hpq (by omega) (by omega) gp gq hS
          obtain ⟨-, sk, hsk, w, hw⟩ :=
            C11_keys_exist cfg' p q S x Sp Sq hpq (by omega) (by omega) gp gq hS
          refine ⟨pk, sk, ?_, ?_, ?_⟩
          · simp only [PublicPaillier.ofProto, show ¬ ((S : Int) < 0) by omega, if_false,
              BN.ofBytes_natToBytes, Int.toNat_natCast, hpk]
          · simp only [PrivatePaillier.ofProto, show ¬ ((S : Int) < 0) by omega, if_false,
              BN.ofBytes_natToBytes, Int.toNat_natCast, hsk]
          · intro m m0 m1
            simp only [Int.toNat_natCast] at m1
            refine ⟨(C11_public_round_trip cfg cfg' p q S hS x hx pk sk hpk hsk m m0 m1).1, ?_⟩
            intro rp rq hrp hrq
            exact (C11_private_round_trip cfg' cfg' p q S hS sk w hsk hw m rp rq m0 m1 hrp hrq).1

/-- **C79**, termination: key generation returns as soon as the library draws a prime different
from the first; as long as it draws the same one again, it does not return.  (There are lengths
with a single safe prime: 7 is the only one that has three bits with the two top bits set.) -/
theorem C79_terminates (gen : Int → Nat → Res Int) (modulusLength s : Int) (hm : 2 ≤ modulusLength)
    (hs : 1 ≤ s) (p : Nat) (h0 : gen (modulusLength / 2) 0 = .ok (p : Int)) :
    (∀ (q k fuel : Nat), k < fuel → p ≠ q →
      (∀ j < k, gen (modulusLength / 2) (1 + j) = .ok (p : Int)) →
      gen (modulusLength / 2) (1 + k) = .ok (q : Int) →
      ∃ keys, generatePaillierKeyPair gen fuel modulusLength s = some (.ok keys)) ∧
    ((∀ i, gen (modulusLength / 2) i = .ok (p : Int)) →
      ∀ fuel, generatePaillierKeyPair gen fuel modulusLength s = none) := by
  have hdiv : modulusLength.tdiv 2 = modulusLength / 2 := tdiv_two (by omega)
  have hc : ¬ (modulusLength / 2 ≤ 0 ∨ s ≤ 0) := by omega
  simp only [generatePaillierKeyPair, hdiv, hc, if_false, h0]
  refine ⟨?_, ?_⟩
  · intro q k fuel hk hne hsame hq
    rw [drawOther_loop (by exact_mod_cast hne) k fuel 1 hk hsame hq]
    exact ⟨_, congrArg some (paillierProtos_ok p q s)⟩
  · intro hall fuel
    rw [drawOther_none hall]
    rfl

/-- **C79**: `PublicPaillier(ctx, n)` and `PrivatePaillier(ctx, p, q)` are the keys with `s = 1`. -/
theorem C79_default_parameter (cfg cfg' : ExpCfg) (p q : Nat) (hp : SafePrime p) (hq : SafePrime q)
    (hpq : p ≠ q) (gp : HasSmallGenerator p) (gq : HasSmallGenerator q) (x : Int)
    (hx : Int.gcd x ((p * q : Nat) : Int) = 1) :
    ∃ pk sk, PublicPaillier.ofModulus cfg x ((p * q : Nat) : Int) = .ok pk ∧
      PrivatePaillier.ofPrimes cfg' p q = .ok sk ∧
      ∀ m, 0 ≤ m → m < ((p * q : Nat) : Int) → ∀ r, 0 ≤ r → r < ((p * q : Nat) : Int) →
        ∃ c, pk.encrypt m r = .ok c ∧ sk.decrypt c = .ok m := by
  obtain ⟨⟨pk, hpk⟩, -⟩ := C11_keys_exist cfg p q 1 x hp hq hpq hp.1.one_lt hq.1.one_lt gp gq
    (le_refl _)
  obtain ⟨-, sk, hsk, -⟩ := C11_keys_exist cfg' p q 1 x hp hq hpq hp.1.one_lt hq.1.one_lt gp gq
    (le_refl _)
  refine ⟨pk, sk, hpk, hsk, fun m m0 m1 r r0 r1 => ?_⟩
  exact (C11_public_round_trip cfg cfg' p q 1 (le_refl _) x hx pk sk hpk hsk m m0
    (by rwa [pow_one])).1 r r0 r1

/-- A negative parameter in a (hostile) key proto is undefined behaviour. -/
theorem C79_negative_parameter_undefined (cfg : ExpCfg) (x : Int) (n p q : Bytes) (s : Int)
    (hs : s < 0) :
    PublicPaillier.ofProto cfg x ⟨n, s⟩ = .ub ∧ PrivatePaillier.ofProto cfg ⟨p, q, s⟩ = .ub := by
  simp [PublicPaillier.ofProto, PrivatePaillier.ofProto, hs]

/-- A prime source as `SafePrimes` demands: for three bits it draws 5, 5, 7, 7, ... -/
def toyGen (bits : Int) (i : Nat) : Res Int :=
  if bits = 3 then (if i < 2 then .ok 5 else .ok 7) else .crash

theorem toyGen_safePrimes : SafePrimes toyGen := by
  intro bits i
  unfold toyGen
  split
  · right
    subst bits
    split
    · exact ⟨5, rfl, ⟨by norm_num, rfl, by norm_num⟩, ⟨2, by decide⟩, by decide, by decide⟩
    · exact ⟨7, rfl, ⟨by norm_num, rfl, by norm_num⟩, ⟨3, by decide⟩, by decide, by decide⟩
  · left; rfl

/-- The hypotheses of C79 are met: three-bit primes, `s = 2`; one of the draws is repeated. -/
example : generatePaillierKeyPair toyGen 2 6 2 = some (.ok (⟨[35], 2⟩, ⟨[5], [7], 2⟩)) := by
  decide +kernel

example : generatePaillierKeyPair toyGen 1 6 2 = none := by decide +kernel

example : generatePaillierKeyPair toyGen 5 1 2 = some (.err .invalidArgument) := by decide +kernel

example : (2 : Int) < 2 ^ ((6 / 2 : Int).toNat - 1) ∧ Int.gcd 2 ((5 * 7 : Nat) : Int) = 1 := by
  decide

/-! ### C80: Camenisch-Shoup keys -/

/-- Specification of a usable public key: positive modulus and parameter, at least one component,
all entries units modulo `n^(s+1)` in reduced form. -/
def CsGoodKey (k : CsPublicKey) : Prop :=
  0 < k.n ∧ 1 ≤ k.s ∧ k.ys ≠ [] ∧
    ∀ y ∈ k.g :: k.ys, 0 < y ∧ y < k.n ^ (k.s + 1) ∧ Int.gcd y k.n = 1

theorem bigNumVector_round_trip (v : List Int) (h : ∀ x ∈ v, 0 ≤ x) :
    ∃ bs, bigNumVectorToProto v = .ok bs ∧ parseBigNumVectorProto bs = v := by
  refine ⟨v.map fun x => BN.natToBytes x.toNat, ?_, ?_⟩
  · unfold bigNumVectorToProto
    rw [Cs.mapM_ok_iff, List.forall₂_map_right_iff]
    exact List.forall₂_same.2 fun x hx => BN.toBytes_of_nonneg (h x hx)
  · unfold parseBigNumVectorProto
    rw [List.map_map]
    conv_rhs => rw [← List.map_id v]
    apply List.map_congr_left
    intro x hx
    have := h x hx
    simp only [Function.comp_apply, BN.ofBytes_natToBytes, id]
    omega

/-- **C80**: a public key sent as a proto arrives unchanged. -/
theorem C80_public_key_round_trip (k : CsPublicKey) (hk : CsGoodKey k) (hs : k.s + 1 < 2 ^ 64) :
    ∃ p, Cs.publicKeyToProto k = .ok p ∧ Cs.parsePublicKeyProto p = .ok k := by
  obtain ⟨n, s, g, ys⟩ := k
  obtain ⟨hn, hs1, hne, hy⟩ := hk
  dsimp only at *
  obtain ⟨bs, hbs, hbs'⟩ := bigNumVector_round_trip ys
    fun x hx => (hy x (List.mem_cons_of_mem _ hx)).1.le
  obtain ⟨g0, g1, g2⟩ := hy g List.mem_cons_self
  have hN : BN.ofBytes (BN.natToBytes n.toNat) = n := by rw [BN.ofBytes_natToBytes]; omega
  have hG : BN.ofBytes (BN.natToBytes g.toNat) = g := by rw [BN.ofBytes_natToBytes]; omega
  refine ⟨⟨BN.natToBytes n.toNat, BN.natToBytes g.toNat, bs, s⟩, ?_, ?_⟩
  · simp only [Cs.publicKeyToProto, BN.toBytes_of_nonneg hn.le, BN.toBytes_of_nonneg g0.le,
      Res.ok_bind, hbs, Res.pure_eq]
  · simp only [Cs.parsePublicKeyProto, hN, hG, hbs', Nat.mod_eq_of_lt hs]
    rw [if_neg (by omega), if_neg (by omega), if_neg (by omega), if_neg (by simpa using hne),
      if_neg]
    simp only [List.any_eq_true, decide_eq_true_eq, not_exists, not_and]
    intro y hy'
    obtain ⟨y0, y1, y2⟩ := hy y (List.mem_cons_of_mem _ hy')
    omega

/-- **C80**: every public key proto, also a hostile one, is refused with INVALID_ARGUMENT or
gives a usable key with the transmitted values. -/
theorem C80_hostile_public_key (p : CsPublicKeyProto) (hs : p.s < 2 ^ 64) :
    Cs.parsePublicKeyProto p = .err .invalidArgument ∨
    ∃ k, Cs.parsePublicKeyProto p = .ok k ∧ CsGoodKey k ∧ k.s = p.s ∧ k.n = BN.ofBytes p.n ∧
      k.g = BN.ofBytes p.g ∧ k.ys = p.ys.map BN.ofBytes := by
  simp only [Cs.parsePublicKeyProto]
  split
  · exact Or.inl rfl
  rename_i hn
  split
  · exact Or.inl rfl
  rename_i hs0
  split
  · exact Or.inl rfl
  rename_i hg
  split
  · exact Or.inl rfl
  rename_i hne
  split
  · exact Or.inl rfl
  rename_i hany
  right
  push Not at hn hg
  have hsmall : p.s + 1 < 2 ^ 64 := by
    by_contra hcon
    have : p.s + 1 = 2 ^ 64 := by omega
    rw [this, Nat.mod_self, pow_zero] at hg
    omega
  rw [Nat.mod_eq_of_lt hsmall] at hg hany
  refine ⟨_, rfl, ⟨hn, by dsimp only; omega, by simpa using hne, ?_⟩, rfl, rfl, rfl, rfl⟩
  intro y hy
  simp only [List.mem_cons] at hy
  obtain rfl | hy := hy
  · exact ⟨hg.1, hg.2.1, hg.2.2⟩
  · simp only [List.any_eq_true, decide_eq_true_eq, not_exists, not_and] at hany
    have := hany y hy
    push Not at this
    exact ⟨this.1, this.2.1, this.2.2⟩

/-- **C80**: the secret exponents arrive unchanged. -/
theorem C80_private_key_round_trip (sk : CsPrivateKey) (h : ∀ x ∈ sk.xs, 0 ≤ x) :
    ∃ p, Cs.privateKeyToProto sk = .ok p ∧ Cs.parsePrivateKeyProto p = .ok sk := by
  obtain ⟨bs, h1, h2⟩ := bigNumVector_round_trip sk.xs h
  exact ⟨bs, h1, by rw [Cs.parsePrivateKeyProto, h2]⟩

/-- **C80**: a ciphertext of the key's modulus and length arrives unchanged; any other is
refused with INVALID_ARGUMENT. -/
theorem C80_ciphertext_round_trip (cfg : ExpCfg) (n s : Nat) (g : Int) (ys : List Int)
    (pk : CsPublic) (hpk : Cs.newPublic cfg n s g ys = .ok pk) :
    (∀ ct : CsCt, (∀ e ∈ ct.u :: ct.es, 0 ≤ e ∧ e < (n : Int) ^ (s + 1)) →
      ct.es.length ≤ ys.length →
      ∃ p, Cs.ciphertextToProto ct = .ok p ∧ Cs.parseCiphertextProto pk p = .ok ct) ∧
    (∀ p, Cs.parseCiphertextProto pk p = .err .invalidArgument ∨
      ∃ ct, Cs.parseCiphertextProto pk p = .ok ct ∧ ct.es.length ≤ ys.length ∧
        (∀ e ∈ ct.u :: ct.es, 0 ≤ e ∧ e < (n : Int) ^ (s + 1)) ∧
        ct.u = BN.ofBytes p.u ∧ ct.es = p.es.map BN.ofBytes) := by
  have hm : pk.modulus = (n : Int) ^ (s + 1) ∧ pk.len = ys.length := by
    unfold Cs.newPublic at hpk
    simp only [Res.bind_eq_ok, Res.pure_eq, Res.ok.injEq] at hpk
    obtain ⟨_, -, _, -, _, -, rfl⟩ := hpk
    exact ⟨DJ.getPowers_get _ _ _ (le_refl _), rfl⟩
  refine ⟨?_, ?_⟩
  · intro ct hr hl
    obtain ⟨bs, h1, h2⟩ := bigNumVector_round_trip ct.es
      fun x hx => (hr x (List.mem_cons_of_mem _ hx)).1
    obtain ⟨u0, u1⟩ := hr ct.u List.mem_cons_self
    have hU : BN.ofBytes (BN.natToBytes ct.u.toNat) = ct.u := by rw [BN.ofBytes_natToBytes]; omega
    refine ⟨⟨BN.natToBytes ct.u.toNat, bs⟩, ?_, ?_⟩
    · simp only [Cs.ciphertextToProto, BN.toBytes_of_nonneg u0, Res.ok_bind, h1, Res.pure_eq]
    · simp only [Cs.parseCiphertextProto, hm, hU, h2]
      rw [if_neg (by omega), if_neg (by omega), if_neg]
      simp only [List.any_eq_true, decide_eq_true_eq, not_exists, not_and]
      intro e he
      have := hr e (List.mem_cons_of_mem _ he)
      omega
  · intro p
    simp only [Cs.parseCiphertextProto, hm]
    split
    · exact Or.inl rfl
    rename_i hu
    split
    · exact Or.inl rfl
    rename_i hl
    split
    · exact Or.inl rfl
    rename_i hany
    right
    refine ⟨_, rfl, by dsimp only; omega, ?_, rfl, rfl⟩
    intro e he
    simp only [List.mem_cons] at he
    obtain rfl | he := he
    · omega
    · simp only [List.any_eq_true, decide_eq_true_eq, not_exists, not_and] at hany
      have := hany e he
      omega

/-- The full claim about hostile keys: making the objects from protos returns a status. -/
def C80FromProtoStatement : Prop :=
  ∀ (cfg : ExpCfg) (p : CsPublicKeyProto) (sp : List Bytes), p.s < 2 ^ 64 →
    ((∃ c, Cs.publicFromProto cfg p = .err c) ∨ ∃ o, Cs.publicFromProto cfg p = .ok o) ∧
    ((∃ c, Cs.privateFromProto cfg p sp = .err c) ∨ ∃ o, Cs.privateFromProto cfg p sp = .ok o)

/-- It is false: a key with an even modulus passes `ParseCamenischShoupPublicKeyProto` and then
aborts the constructor (so does a private key with the wrong number of exponents). -/
theorem C80_from_proto_fails : ¬ C80FromProtoStatement := by
  intro h
  have := (h ⟨true, 5⟩ ⟨[4], [1], [[1]], 1⟩ [] (by norm_num)).1
  have e : Cs.publicFromProto ⟨true, 5⟩ ⟨[4], [1], [[1]], 1⟩ = .crash := by rfl
  rw [e] at this
  simp at this

/-- **C80**, partial: with an odd modulus that has no prime factor up to `s`, making the objects
from protos returns a status, except that the number of secret exponents has to match the number of
components (otherwise the process aborts).  Missing from the full statement: other moduli, which
abort the process (`C80_from_proto_fails`). -/
theorem C80_from_proto_partial (cfg : ExpCfg) (p : CsPublicKeyProto) (sp : List Bytes)
    (hs : p.s < 2 ^ 64) (hodd : BN.ofBytes p.n % 2 = 1)
    (hco : ∀ i : Nat, 1 ≤ i → i ≤ p.s → Int.gcd i (BN.ofBytes p.n) = 1) :
    (Cs.publicFromProto cfg p = .err .invalidArgument ∨
      ∃ o, Cs.publicFromProto cfg p = .ok o) ∧
    (sp.length = p.ys.length → Cs.privateFromProto cfg p sp = .err .invalidArgument ∨
      ∃ o, Cs.privateFromProto cfg p sp = .ok o) ∧
    (sp.length ≠ p.ys.length → Cs.privateFromProto cfg p sp = .err .invalidArgument ∨
      Cs.privateFromProto cfg p sp = .crash) := by
  obtain h | ⟨k, h, hk, e1, e2, e3, e4⟩ := C80_hostile_public_key p hs
  · simp [Cs.publicFromProto, Cs.privateFromProto, h]
  obtain ⟨n, s, g, ys⟩ := k
  obtain ⟨hn, hs1, hne, hy⟩ := hk
  dsimp only at *
  obtain ⟨N, rfl⟩ := Int.eq_ofNat_of_zero_le hn.le
  have hN : 1 < N := by
    by_contra hcon
    have : N = 1 := by omega
    subst this
    have := hy g List.mem_cons_self
    simp only [Nat.cast_one, one_pow] at this
    omega
  rw [← e2] at hodd hco
  rw [← e1] at hco
  have key : ∀ xs : List Int, ys.length = xs.length →
      ∃ sk, Cs.newPrivate cfg N s g ys xs = .ok sk := fun xs hl =>
    Cs.newPrivate_ok cfg N s g ys xs hN (by omega)
      (fun i h1 h2 => Nat.isCoprime_iff_coprime.1 (Int.isCoprime_iff_gcd_eq_one.2 (hco i h1 h2)))
      ⟨(hy g List.mem_cons_self).1.le, (hy g List.mem_cons_self).2.1⟩
      (fun y hy' => have := hy y (List.mem_cons_of_mem _ hy')
        ⟨this.1.le, this.2.1⟩) hl
  have hl : ys.length = p.ys.length := by rw [e4, List.length_map]
  have split : ∀ xs sk, Cs.newPrivate cfg N s g ys xs = .ok sk →
      ∃ pub t, Cs.newPublic cfg N s g ys = .ok pub ∧
        DJ.getDecryptPrecomp pub.precomp pub.powers s = .ok t := by
    intro xs sk h2
    unfold Cs.newPrivate at h2
    simp only [Res.bind_eq_ok] at h2
    obtain ⟨pub, hpub, t, ht, -⟩ := h2
    exact ⟨pub, t, hpub, ht⟩
  obtain ⟨sk0, hsk0⟩ := key ys rfl
  obtain ⟨pub, t, hpub, ht⟩ := split _ _ hsk0
  refine ⟨Or.inr ⟨pub, ?_⟩, ?_, ?_⟩
  · simp only [Cs.publicFromProto, h, Res.ok_bind, hpub]
  · intro hlen
    obtain ⟨sk, hsk⟩ := key (parseBigNumVectorProto sp)
      (by rw [parseBigNumVectorProto, List.length_map, hlen, hl])
    right
    exact ⟨sk, by simp only [Cs.privateFromProto, h, Res.ok_bind, Cs.parsePrivateKeyProto, hsk]⟩
  · intro hlen
    right
    simp only [Cs.privateFromProto, h, Res.ok_bind, Cs.parsePrivateKeyProto, Cs.newPrivate, hpub, ht]
    rw [if_pos]
    rw [parseBigNumVectorProto, List.length_map, hl]
    exact fun e => hlen e.symm

/-- **C80**: whatever `GenerateCamenischShoupKey` returns is a usable key pair for a modulus that
is the product of two different safe primes of half the length; sent as protos and read back it
gives objects of which the private one decrypts what the public one encrypts. -/
theorem C80_generated_keys_work (gen : Int → Nat → Res Int) (hg : SafePrimes gen) (fuel : Nat)
    (bits : Int) (s : Nat) (x : Int → Int) (xs : Int → List Int) (key : Cs.Key)
    (hs1 : 1 ≤ s) (hs : s + 1 < 2 ^ 64) (hsb : s < 2 ^ ((bits.tdiv 2).toNat - 1))
    (h : Cs.generateKey gen fuel bits s x xs = some (.ok key))
    (hx : Int.gcd (x key.pub.n) (key.pub.n ^ (s + 1)) = 1)
    (hxs : xs key.pub.n ≠ [] ∧ ∀ y ∈ xs key.pub.n, 0 ≤ y) :
    ∃ p q : Nat, SafePrime p ∧ SafePrime q ∧ p ≠ q ∧ key.p = p ∧ key.q = q ∧
      2 ^ ((bits.tdiv 2).toNat - 1) ≤ p ∧ p < 2 ^ (bits.tdiv 2).toNat ∧
      2 ^ ((bits.tdiv 2).toNat - 1) ≤ q ∧ q < 2 ^ (bits.tdiv 2).toNat ∧
      key.pub.n = (p * q : Nat) ∧ key.pub.s = s ∧ key.priv.xs = xs (p * q : Nat) ∧
      CsGoodKey key.pub ∧ CsKeyPair (p * q) s key.pub.g key.pub.ys key.priv.xs ∧
      ∀ cfg cfg' : ExpCfg, ∃ pp sp pk sk,
        Cs.publicKeyToProto key.pub = .ok pp ∧ Cs.privateKeyToProto key.priv = .ok sp ∧
        Cs.publicFromProto cfg pp = .ok pk ∧ Cs.privateFromProto cfg' pp sp = .ok sk ∧
        ∀ (ms : List Int) (r : Int), ms.length ≤ key.pub.ys.length → (∀ m ∈ ms, 0 ≤ m) →
          0 ≤ r → Int.gcd r (p * q : Nat) = 1 →
          ∃ ct, Cs.encrypt pk ms r = .ok ct ∧
            Cs.decrypt sk ct = .ok (csPlain (p * q) s key.pub.ys.length ms) := by
  unfold Cs.generateKey at h
  dsimp only at h
  obtain h0 | ⟨p, h0, Sp, -, lp, up⟩ := hg (bits.tdiv 2) 0
  · simp [h0] at h
  rw [h0] at h
  simp only [Option.map_eq_some_iff] at h
  obtain ⟨r, hr, h⟩ := h
  obtain ⟨q', rfl, h⟩ := Res.bind_eq_ok.1 h
  obtain ⟨hne, j, -, hj⟩ := drawOther_ok hr
  obtain h1 | ⟨q, h1, Sq, -, lq, uq⟩ := hg (bits.tdiv 2) j
  · simp [h1] at hj
  rw [h1, Res.ok.injEq] at hj
  subst hj
  have hpq : p ≠ q := by intro e; exact hne (by rw [e])
  have hN : 1 < p * q := Nat.one_lt_mul_iff.2 ⟨Sp.1.pos, Sq.1.pos, Or.inl Sp.1.one_lt⟩
  change (Cs.generateKeyPair ((p : Int) * q) s _ _ >>= fun k => _) = _ at h
  rw [Res.bind_eq_ok] at h
  obtain ⟨⟨pub, priv⟩, hgen, h⟩ := h
  simp only [Res.pure_eq, Res.ok.injEq] at h
  subst h
  rw [← Nat.cast_mul] at hgen
  have hpn : pub.n = (p * q : Nat) := by
    have hg' := hgen
    simp only [Cs.generateKeyPair, Res.bind_eq_ok, Res.pure_eq, Res.ok.injEq, Prod.mk.injEq] at hg'
    obtain ⟨g, -, ys, -, rfl, rfl⟩ := hg'
    rfl
  dsimp only at hx hxs
  rw [hpn] at hx hxs
  obtain ⟨pub', priv', hgen', en, es, exs, hpair, hobj⟩ :=
    C54_generated_keys (p * q) s hN (x (p * q : Nat)) (xs (p * q : Nat)) hx hxs.2
  rw [hgen, Res.ok.injEq, Prod.mk.injEq] at hgen'
  obtain ⟨rfl, rfl⟩ := hgen'
  have hps1 : (0 : Int) < ((p * q : Nat) : Int) ^ (s + 1) := pow_pos (by exact_mod_cast (by omega)) _
  have hgood : CsGoodKey pub := by
    have hg' := hgen
    simp only [Cs.generateKeyPair, Res.bind_eq_ok, Res.pure_eq, Res.ok.injEq, Prod.mk.injEq] at hg'
    obtain ⟨g, hgg, ys, hys, rfl, rfl⟩ := hg'
    rw [Cs.mapM_ok_iff] at hys
    have unit : ∀ y : Int, 0 ≤ y → Int.gcd y (p * q : Nat) = 1 → 0 < y := by
      intro y y0 hy
      rcases Nat.lt_or_ge 0 y.toNat with h' | h'
      · omega
      · have : y = 0 := by omega
        subst this
        rw [Int.gcd_zero_left] at hy
        omega
    have red : ∀ a e y : Int, BN.modExp a e (((p * q : Nat) : Int) ^ (s + 1)) = .ok y →
        y = a ^ e.toNat % ((p * q : Nat) : Int) ^ (s + 1) := by
      intro a e y hy
      unfold BN.modExp at hy
      rw [if_neg hps1.ne'] at hy
      split at hy
      · cases hy
      · exact (Res.ok.injEq _ _ ▸ hy).symm
    have hgcd : Int.gcd g (p * q : Nat) = 1 := hpair.1
    have hgr := red _ _ _ hgg
    refine ⟨by dsimp only; exact_mod_cast (by omega : 0 < p * q), hs1, ?_, ?_⟩
    · intro e
      dsimp only at e
      rw [e] at hys
      have := hys.length_eq
      simp only [List.length_nil, List.length_eq_zero_iff] at this
      exact hxs.1 this
    · intro y hy
      dsimp only at hy ⊢
      simp only [List.mem_cons] at hy
      obtain rfl | hy := hy
      · have y0 : 0 ≤ y := by rw [hgr]; exact Int.emod_nonneg _ hps1.ne'
        refine ⟨unit y y0 hgcd, ?_, hgcd⟩
        rw [hgr]
        exact Int.emod_lt_of_pos _ hps1
      · obtain ⟨i, hi, rfl⟩ := List.mem_iff_getElem.1 hy
        have hi' : i < (xs (p * q : Nat)).length := by rw [hys.length_eq]; exact hi
        have := red _ _ _ (hys.get hi' hi)
        simp only [List.get_eq_getElem] at this
        have y0 : 0 ≤ ys[i] := by rw [this]; exact Int.emod_nonneg _ hps1.ne'
        have hc : Int.gcd ys[i] (p * q : Nat) = 1 := by
          rw [this]
          apply Int.isCoprime_iff_gcd_eq_one.1
          exact DJ.isCoprime_of_modEq
            (DJ.modEq_of_dvd' (DJ.emod_modEq _ _) (dvd_pow_self _ (by omega))).symm
            (Int.isCoprime_iff_gcd_eq_one.2 hgcd).pow_left
        refine ⟨unit _ y0 hc, ?_, hc⟩
        rw [this]
        exact Int.emod_lt_of_pos _ hps1
  refine ⟨p, q, Sp, Sq, hpq, rfl, rfl, lp, up, lq, uq, en, es, exs, hgood, hpair, ?_⟩
  intro cfg cfg'
  obtain ⟨pp, hpp, hpp'⟩ := C80_public_key_round_trip pub hgood (by rw [es]; exact hs)
  obtain ⟨sp, hsp, hsp'⟩ := C80_private_key_round_trip priv (by rw [exs]; exact hxs.2)
  have hodd : p * q % 2 = 1 := by rw [Nat.mul_mod, Sp.2.1, Sq.2.1]
  have hco : ∀ i : Nat, 1 ≤ i → i ≤ s → Nat.Coprime i (p * q) := by
    intro i h1 h2
    apply Nat.Coprime.mul_right
    · rw [Nat.coprime_comm, Sp.1.coprime_iff_not_dvd]
      intro hd
      have := Nat.le_of_dvd (by omega) hd
      omega
    · rw [Nat.coprime_comm, Sq.1.coprime_iff_not_dvd]
      intro hd
      have := Nat.le_of_dvd (by omega) hd
      omega
  obtain ⟨pk, -, hpk, -⟩ := hobj hodd hco cfg
  obtain ⟨-, sk, -, hsk⟩ := hobj hodd hco cfg'
  refine ⟨pp, sp, pk, sk, hpp, hsp, ?_, ?_, ?_⟩
  · simp only [Cs.publicFromProto, hpp', Res.ok_bind, en, es, hpk]
  · simp only [Cs.privateFromProto, hpp', hsp', Res.ok_bind, en, es, hsk]
  · intro ms r hl hms r0 hr1
    obtain ⟨-, h2, -⟩ := C54_round_trip cfg cfg' (p * q) s (by omega) pub.g pub.ys priv.xs hpair pk sk
      hpk hsk ms hl
    obtain ⟨ct, hct, -, hdec⟩ := h2 r r0 hr1 hms
    exact ⟨ct, hct, hdec⟩

/-- The hypotheses of C80 are met by a generated key with two components, `n = 35`, `s = 1`. -/
example : Cs.generateKey toyGen 2 6 1 (fun _ => 2) (fun _ => [2, 3]) =
    some (.ok ⟨⟨35, 1, 324, [851, 99]⟩, ⟨[2, 3]⟩, 5, 7⟩) := by decide +kernel

example : CsGoodKey ⟨35, 1, 324, [851, 99]⟩ :=
  ⟨by decide, by decide, by decide, by decide +kernel⟩

example : Int.gcd 2 (35 ^ (1 + 1)) = 1 ∧ 1 < 2 ^ (((6 : Int).tdiv 2).toNat - 1) := by decide

/-- A hostile key that is refused: its component 5 is not a unit. -/
example : Cs.parsePublicKeyProto ⟨[35], [2], [[3], [5]], 1⟩ = .err .invalidArgument := by
  decide +kernel

example : Cs.parsePublicKeyProto ⟨[35], [2], [[3], [4]], 1⟩ = .ok ⟨35, 1, 2, [3, 4]⟩ := by
  decide +kernel

end PJC.Props
