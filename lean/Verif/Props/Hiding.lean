import Mathlib.Data.Int.CardIntervalMod
import Mathlib.GroupTheory.SpecificGroups.Cyclic
import Mathlib.Data.Int.NatPrime
import Verif.Props.Ec
import Verif.Props.Pedersen
/-
Properties C87-C89: what single ciphertexts and commitments hide, as exact counts of the draws that
explain an observation.

C87: for every pair of identifiers, an encrypted identifier is explained by exactly one key for
each of them.
C88: re-randomization reaches every other encryption of the same message, by exactly one draw.
C89: a commitment is explained by (up to one) equally many openings for every message vector.
-/
namespace PJC.Props
open PJC

variable {G : Type} [AddCommGroup G] [DecidableEq G]

/-- In a group of prime order, exactly one scalar in `[1, order)` takes a point to another. -/
theorem unique_scalar {E : EcGroup G} (hE : E.Lawful) (hc : Nat.card G = E.order) {P Q : G}
    (hP : P ≠ 0) (hQ : Q ≠ 0) :
    ∃ k : Nat, 1 ≤ k ∧ k < E.order ∧ (k : Int) • P = Q ∧
      ∀ k' : Int, 1 ≤ k' → k' < E.order → k' • P = Q → k' = k := by
  have hp := hE.prime
  have hpos : (0 : Int) < E.order := by exact_mod_cast hp.pos
  haveI := Fact.mk hp
  have hm : Q ∈ AddSubgroup.zmultiples P := mem_zmultiples_of_prime_card hc hP
  obtain ⟨k0, rfl⟩ := AddSubgroup.mem_zmultiples_iff.1 hm
  have h0 := Int.emod_nonneg k0 (ne_of_gt hpos)
  have h1 := Int.emod_lt_of_pos k0 hpos
  have heq : (k0 % E.order) • P = k0 • P := hE.zsmul_congr (Int.mod_modEq _ _) P
  have hne : k0 % E.order ≠ 0 := by
    intro h
    rw [h, zero_zsmul] at heq
    exact hQ heq.symm
  refine ⟨(k0 % E.order).toNat, by omega, by omega, ?_, ?_⟩
  · rw [Int.toNat_of_nonneg h0, heq]
  · intro k' a b h
    rw [Int.toNat_of_nonneg h0]
    by_contra hcon
    rw [← heq] at h
    have : (k' - k0 % E.order) • P = 0 := by rw [sub_zsmul, h]; abel
    refine hE.zsmul_ne ?_ hP this
    intro hd
    have := Int.eq_zero_of_abs_lt_dvd hd (by rw [abs_lt]; constructor <;> omega)
    omega

/-- **C87**, `Encrypt`.  A ciphertext of one identifier is, for every identifier, the ciphertext
under exactly one key: with a fresh key it carries no information about the identifier. -/
theorem C87_encrypt (E : EcGroup G) (hE : E.Lawful) (hc : Nat.card G = E.order) (t : HashType)
    (K : EcCipher G) (hK : CipherOf E t K) (a b : Bytes) (ct : Bytes) (h : K.encrypt a = .ok ct)
    (hb : (K.hashToTheCurve b).isOk) :
    ∃ k : Nat, 1 ≤ k ∧ k < E.order ∧ (∃ K', CipherOf E t K' ∧ K'.privateKey = k) ∧
      ∀ K', CipherOf E t K' → (K'.encrypt b = .ok ct ↔ K'.privateKey = k) := by
  have g := hK.good hE
  unfold EcCipher.encrypt at h
  simp only [Res.bind_eq_ok] at h
  obtain ⟨P, -, Q, hQ, hct⟩ := h
  rw [g.group] at hct
  obtain ⟨hQ0, -⟩ := hE.toBytes_ok hct
  obtain ⟨bb, hbb⟩ := hb
  unfold EcCipher.hashToTheCurve at hbb
  simp only [Res.bind_eq_ok] at hbb
  obtain ⟨R, hR, hR2⟩ := hbb
  rw [g.group] at hR2
  obtain ⟨hR0, -⟩ := hE.toBytes_ok hR2
  have ht : t ≠ .other := by
    rintro rfl
    simp [EcCipher.hashToTheCurveInternal, g.hashType] at hR
  obtain ⟨k, h1, h2, h3, h4⟩ := unique_scalar hE hc hR0 hQ0
  refine ⟨k, h1, h2, cipherOf_exists hE ht h1 h2, ?_⟩
  intro K' hK'
  have g' := hK'.good hE
  have hR' : K'.hashToTheCurveInternal b = .ok R := by rw [g'.hash_eq g]; exact hR
  rw [g'.encrypt_eq hR']
  constructor
  · intro he
    exact h4 _ g'.key_pos g'.key_lt (hE.toBytes_inj he hct)
  · intro he
    rw [he, h3, hct]

/-- **C87**, `ReEncrypt`: the same for the second layer, over any two points. -/
theorem C87_re_encrypt (E : EcGroup G) (hE : E.Lawful) (hc : Nat.card G = E.order) (t : HashType)
    (ht : t ≠ .other) (K : EcCipher G) (hK : CipherOf E t K) (a b : Bytes) (ct : Bytes)
    (h : K.reEncrypt a = .ok ct) (hb : (E.createECPoint b).isOk) :
    ∃ k : Nat, 1 ≤ k ∧ k < E.order ∧ (∃ K', CipherOf E t K' ∧ K'.privateKey = k) ∧
      ∀ K', CipherOf E t K' → (K'.reEncrypt b = .ok ct ↔ K'.privateKey = k) := by
  have g := hK.good hE
  unfold EcCipher.reEncrypt at h
  simp only [Res.bind_eq_ok] at h
  obtain ⟨P, -, Q, hQ, hct⟩ := h
  rw [g.group] at hct
  obtain ⟨hQ0, -⟩ := hE.toBytes_ok hct
  obtain ⟨R, hR⟩ := hb
  have hR0 : R ≠ 0 := by
    unfold EcGroup.createECPoint at hR
    split at hR
    · cases hR
    · split at hR
      · cases hR
      · cases hR; assumption
  obtain ⟨k, h1, h2, h3, h4⟩ := unique_scalar hE hc hR0 hQ0
  refine ⟨k, h1, h2, cipherOf_exists hE ht h1 h2, ?_⟩
  intro K' hK'
  have g' := hK'.good hE
  rw [g'.reEncrypt_eq hR]
  constructor
  · intro he
    exact h4 _ g'.key_pos g'.key_lt (hE.toBytes_inj he hct)
  · intro he
    rw [he, h3, hct]

/-! ### C88 -/

theorem generatePrivateKey_word {E : EcGroup G} (hE : E.Lawful) {w : Nat} (hw : w < E.order - 1) :
    E.generatePrivateKey w = .ok ((w + 1 : Nat) : Int) := by
  have h2 := hE.prime.two_le
  simp only [EcGroup.generatePrivateKey, Ctx.randBetween, Ctx.randLessThan]
  rw [if_pos (by omega), if_neg (by omega)]
  rw [Int.emod_eq_of_lt (by omega) (by omega)]
  simp

/-- **C88**, `ReRandomize`.  Of the `order - 1` draws, exactly one takes a ciphertext to any given
other ciphertext of the same plaintext. -/
theorem C88_re_randomize (E : EcGroup G) (hE : E.Lawful) (hc : Nat.card G = E.order)
    (pk : ElGamal.PublicKey G) (sk : ElGamal.PrivateKey) (hk : pk.y = sk.x • pk.g)
    (hg : pk.g ≠ 0) (c c' : ElGamal.Ct G)
    (hd : ElGamal.decrypt sk c' = ElGamal.decrypt sk c) (hne : c'.u ≠ c.u) :
    ∃ w, w < E.order - 1 ∧ ElGamal.reRandomize E pk c w = .ok c' ∧
      ∀ w', w' < E.order - 1 → ElGamal.reRandomize E pk c w' = .ok c' → w' = w := by
  obtain ⟨k, h1, h2, h3, h4⟩ := unique_scalar hE hc hg (sub_ne_zero.2 hne)
  simp only [ElGamal.decrypt, Res.ok.injEq] at hd
  refine ⟨k - 1, by omega, ?_, ?_⟩
  · unfold ElGamal.reRandomize
    rw [generatePrivateKey_word hE (by omega), Nat.sub_add_cancel h1]
    simp only [Res.ok_bind, Res.pure_eq, Res.ok.injEq]
    have hu : c.u + (k : Int) • pk.g = c'.u := by rw [h3]; abel
    have he : c.e + (k : Int) • pk.y = c'.e := by
      have e1 : c'.e = c.e + -(sk.x • c.u) + sk.x • c'.u := by rw [← hd]; abel
      have e2 : (k : Int) • sk.x • pk.g = sk.x • (k : Int) • pk.g := zsmul_comm _ _ _
      rw [e1, ← hu, hk, zsmul_add, e2]
      abel
    rw [hu, he]
  · intro w' hw' h
    unfold ElGamal.reRandomize at h
    rw [generatePrivateKey_word hE hw'] at h
    simp only [Res.ok_bind, Res.pure_eq, Res.ok.injEq] at h
    have hu : c.u + ((w' + 1 : Nat) : Int) • pk.g = c'.u := by rw [← h]
    have := h4 ((w' + 1 : Nat) : Int) (by omega) (by omega) (by rw [← hu]; abel)
    omega

/-- **C88**, `Encrypt`: every pair that decrypts to `m` and whose first component is not the
identity is an encryption of `m`, by exactly one draw. -/
theorem C88_encrypt (E : EcGroup G) (hE : E.Lawful) (hc : Nat.card G = E.order)
    (pk : ElGamal.PublicKey G) (sk : ElGamal.PrivateKey) (hk : pk.y = sk.x • pk.g)
    (hg : pk.g ≠ 0) (m : G) (c : ElGamal.Ct G) (hd : ElGamal.decrypt sk c = .ok m)
    (hne : c.u ≠ 0) :
    ∃ w, w < E.order - 1 ∧ ElGamal.encrypt E pk m w = .ok c ∧
      ∀ w', w' < E.order - 1 → ElGamal.encrypt E pk m w' = .ok c → w' = w := by
  have conv : ∀ w, ElGamal.encrypt E pk m w = ElGamal.reRandomize E pk ⟨0, m⟩ w := by
    intro w
    simp [ElGamal.encrypt, ElGamal.reRandomize]
  simp only [conv]
  exact C88_re_randomize E hE hc pk sk hk hg ⟨0, m⟩ c (by rw [hd]; simp [ElGamal.decrypt]) hne

/-- Encryptions and re-randomizations never leave these cases: the first component changes, and
the plaintext does not. -/
theorem C88_converse (E : EcGroup G) (hE : E.Lawful) (pk : ElGamal.PublicKey G)
    (sk : ElGamal.PrivateKey) (hk : pk.y = sk.x • pk.g) (hg : pk.g ≠ 0) (c c' : ElGamal.Ct G)
    (w : Nat) (h : ElGamal.reRandomize E pk c w = .ok c') :
    ElGamal.decrypt sk c' = ElGamal.decrypt sk c ∧ c'.u ≠ c.u := by
  obtain ⟨r, hr, h1, h2⟩ := hE.generatePrivateKey_spec w
  unfold ElGamal.reRandomize at h
  rw [hr] at h
  simp only [Res.ok_bind, Res.pure_eq, Res.ok.injEq] at h
  subst h
  constructor
  · have e2 : r • sk.x • pk.g = sk.x • r • pk.g := zsmul_comm _ _ _
    simp only [ElGamal.decrypt, Res.ok.injEq, hk, zsmul_add, e2]
    abel
  · have := hE.zsmul_ne (hE.not_dvd h1 h2) hg
    simpa using this

/-! ### Examples on the toy group of order 11 -/

theorem toy_card : Nat.card (ZMod 11) = toyEc.order := by simp [toyEc]

example (K : EcCipher (ZMod 11)) (hK : CipherOf toyEc .sha256 K) (ct : Bytes)
    (h : K.encrypt [3] = .ok ct) :
    ∃ k : Nat, 1 ≤ k ∧ k < 11 ∧ (∃ K', CipherOf toyEc .sha256 K' ∧ K'.privateKey = k) ∧
      ∀ K', CipherOf toyEc .sha256 K' → (K'.encrypt [8] = .ok ct ↔ K'.privateKey = k) := by
  have g := hK.good toyEc_lawful
  refine C87_encrypt toyEc toyEc_lawful toy_card .sha256 K hK [3] [8] ct h ?_
  unfold EcCipher.hashToTheCurve EcCipher.hashToTheCurveInternal
  rw [g.group, g.hashType]
  exact ⟨[9], by decide⟩

example : ∃ w, w < 10 ∧ ElGamal.reRandomize toyEc ⟨1, 3⟩ ⟨2, 5⟩ w = .ok ⟨6, 6⟩ := by
  obtain ⟨w, h1, h2, -⟩ := C88_re_randomize toyEc toyEc_lawful toy_card ⟨1, 3⟩ ⟨3⟩ (by decide)
    (by decide) ⟨2, 5⟩ ⟨6, 6⟩ (by simp only [ElGamal.decrypt, Res.ok.injEq]; decide) (by decide)
  exact ⟨w, h1, h2⟩

end PJC.Props

/-! ### C89 -/

namespace PJC.Ped
open PJC PJC.Props

/-- The combined exponent of `h` in a commitment whose generators are `h^{r_i}`. -/
def dotNat (rs ms : List Int) : Nat :=
  (List.zipWith (fun r m => r.toNat * m.toNat) rs ms).sum

theorem prodOfPowers_log {h n : Int} (hn : 0 < n) : ∀ (gs rs ms : List Int),
    gs.length = rs.length →
    (∀ (i : Nat) (g r : Int), gs[i]? = some g → rs[i]? = some r → g = h ^ r.toNat % n) →
    ((prodOfPowers gs ms : Int) : ZMod n.toNat) = (h : ZMod n.toNat) ^ dotNat rs ms
  | [], rs, ms, hl, _ => by
    have : rs = [] := List.eq_nil_of_length_eq_zero hl.symm
    subst this
    simp [prodOfPowers, dotNat]
  | g :: gs, [], ms, hl, _ => by simp at hl
  | g :: gs, r :: rs, [], hl, _ => by simp [prodOfPowers, dotNat]
  | g :: gs, r :: rs, m :: ms, hl, hg => by
    have ih := prodOfPowers_log hn gs rs ms (by simpa using hl)
      (fun i g' r' h1 h2 => hg (i + 1) g' r' (by simpa using h1) (by simpa using h2))
    have h0 : ((g : Int) : ZMod n.toNat) = (h : ZMod n.toNat) ^ r.toNat := by
      have e := hg 0 g r rfl rfl
      have : g % n = h ^ r.toNat % n := by rw [e, Int.emod_emod]
      rw [(emod_eq_iff hn).1 this]
      push_cast; rfl
    unfold prodOfPowers dotNat at ih ⊢
    simp only [List.zipWith_cons_cons, List.prod_cons, List.sum_cons, Int.cast_mul, Int.cast_pow]
    rw [ih, h0, pow_add, pow_mul]

/-- **C89**.  Parameters made by `GenerateParameters`.  There is a number `M` (the order of `h`)
with the following property for all messages: of the `n` values of the randomness that `Commit`
draws from, `n / M` or `n / M + 1` open a commitment to the given messages if the commitment is a
power of `h`, and none otherwise.  So the number of draws that explain a commitment is the same for
any two vectors of messages, up to one. -/
theorem C89_hiding (n x : Int) (ws : List Nat) (hn : 4 ≤ n) (hx : Int.gcd x n = 1)
    (P : PedersenParams) (hP : generateParameters n x ws = .ok P) (k : Nat) (hk : 1 ≤ k)
    (hk' : k < 31) (p : Pedersen) (hp : create P.gs P.h P.n k = .ok p) :
    ∃ M : Nat, 0 < M ∧ M < n.toNat ∧ P.h ^ M % n = 1 ∧ (∀ j, 0 < j → P.h ^ j % n = 1 → M ≤ j) ∧
      ∀ (c : Int) (ms : List Int), ms.length ≤ P.gs.length → (∀ m ∈ ms, 0 ≤ m) →
        ((∃ e : Nat, c = P.h ^ e % n) →
          n.toNat / M ≤ n.toNat.count (fun r => verify p c ms (r : Int) = .ok true) ∧
          n.toNat.count (fun r => verify p c ms (r : Int) = .ok true) ≤ n.toNat / M + 1) ∧
        ((¬ ∃ e : Nat, c = P.h ^ e % n) →
          n.toNat.count (fun r => verify p c ms (r : Int) = .ok true) = 0) := by
  classical
  obtain ⟨P', hP', wf, hPn, -, lg, lr, hlog⟩ := C69_generated n x ws hn hx
  rw [hP] at hP'
  cases hP'
  obtain ⟨-, -, h0, h1, hg⟩ := wf
  rw [hPn] at h1 hg hp
  obtain ⟨p', hp', Gd⟩ := create_good (gs := P.gs) (h := P.h) (n := n) (k := k) (by omega) hk hk'
  rw [hp] at hp'
  cases hp'
  haveI : NeZero n.toNat := ⟨by omega⟩
  obtain ⟨u, hu⟩ := isUnit_cast (by omega : 0 < n) hg
  have cast : ∀ e : Nat, ((P.h ^ e : Int) : ZMod n.toNat) = ((u ^ e : (ZMod n.toNat)ˣ) : ZMod n.toNat) := by
    intro e; push_cast; rw [hu]
  have hM : 0 < orderOf u := orderOf_pos u
  have pw : ∀ a b : Nat, P.h ^ a % n = P.h ^ b % n ↔ a ≡ b [MOD orderOf u] := by
    intro a b
    rw [emod_eq_iff (by omega), cast, cast, Units.val_inj, pow_eq_pow_iff_modEq]
  have one : ∀ a : Nat, P.h ^ a % n = 1 ↔ orderOf u ∣ a := by
    intro a
    have := pw a 0
    rw [pow_zero, Int.emod_eq_of_lt (a := 1) (by omega) (by omega)] at this
    rw [this, Nat.modEq_zero_iff_dvd]
  refine ⟨orderOf u, hM, ?_, (one _).2 dvd_rfl, fun j hj h => Nat.le_of_dvd hj ((one j).1 h), ?_⟩
  · have h2 := orderOf_dvd_card (x := u)
    rw [ZMod.card_units_eq_totient] at h2
    exact lt_of_le_of_lt (Nat.le_of_dvd (Nat.totient_pos.2 (by omega)) h2)
      (Nat.totient_lt _ (by omega))
  intro c ms hl hms
  have com : ∀ r : Nat, commitment P.gs P.h n ms (r : Int) = P.h ^ (dotNat P.rs ms + r) % n := by
    intro r
    unfold commitment
    rw [emod_eq_iff (by omega)]
    push_cast
    rw [prodOfPowers_log (by omega : 0 < n) P.gs P.rs ms (by omega)
      (fun i g r h1 h2 => (hlog i g r h1 h2).1), Int.toNat_natCast, pow_add]
  have ver : ∀ r : Nat, verify p c ms (r : Int) = .ok true ↔
      c = P.h ^ (dotNat P.rs ms + r) % n := by
    intro r
    rw [Gd.verify ⟨hl, hms, by omega⟩, com]
    simp
  simp only [ver]
  constructor
  · rintro ⟨e, rfl⟩
    have hc : (fun r : Nat => P.h ^ e % n = P.h ^ (dotNat P.rs ms + r) % n) =
        fun r => r ≡ (e + dotNat P.rs ms * (orderOf u - 1)) [MOD orderOf u] := by
      funext r
      rw [pw, eq_iff_iff]
      have hd : dotNat P.rs ms + dotNat P.rs ms * (orderOf u - 1) = orderOf u * dotNat P.rs ms := by
        obtain ⟨t, ht⟩ : ∃ t, orderOf u = t + 1 := ⟨_, (Nat.succ_pred_eq_of_pos hM).symm⟩
        rw [ht]; simp; ring
      have hz : dotNat P.rs ms + dotNat P.rs ms * (orderOf u - 1) ≡ 0 [MOD orderOf u] := by
        rw [hd, Nat.modEq_zero_iff_dvd]; exact ⟨_, rfl⟩
      constructor
      · intro h
        have h2 := h.add_right (dotNat P.rs ms * (orderOf u - 1))
        refine (h2.trans ?_).symm
        have : dotNat P.rs ms + r + dotNat P.rs ms * (orderOf u - 1) =
            (dotNat P.rs ms + dotNat P.rs ms * (orderOf u - 1)) + r := by ring
        rw [this]
        simpa using hz.add_right r
      · intro h
        have h2 := h.add_left (dotNat P.rs ms)
        refine (h2.trans ?_).symm
        have : dotNat P.rs ms + (e + dotNat P.rs ms * (orderOf u - 1)) =
            (dotNat P.rs ms + dotNat P.rs ms * (orderOf u - 1)) + e := by ring
        rw [this]
        simpa using hz.add_right e
    have key : n.toNat.count (fun r : Nat => P.h ^ e % n = P.h ^ (dotNat P.rs ms + r) % n) =
        n.toNat.count (fun r => r ≡ (e + dotNat P.rs ms * (orderOf u - 1)) [MOD orderOf u]) := by
      congr!
    rw [key, Nat.count_modEq_card _ hM]
    split <;> omega
  · intro hno
    rw [Nat.count_eq_card_filter_range, Finset.card_eq_zero, Finset.filter_eq_empty_iff]
    intro r _ h
    exact hno ⟨_, h⟩

/-- **C89**, binding: two openings of one commitment give two exponents, computable from the
openings and the secrets of the parameters, at which the powers of `h` agree - if they differ, a
multiple of the order of `h` has been found. -/
theorem C89_binding (n x : Int) (ws : List Nat) (hn : 4 ≤ n) (hx : Int.gcd x n = 1)
    (P : PedersenParams) (hP : generateParameters n x ws = .ok P) (k : Nat) (hk : 1 ≤ k)
    (hk' : k < 31) (p : Pedersen) (hp : create P.gs P.h P.n k = .ok p) (c : Int)
    (ms ms' : List Int) (r r' : Int) (h1 : verify p c ms r = .ok true)
    (h2 : verify p c ms' r' = .ok true) :
    P.h ^ (dotNat P.rs ms + r.toNat) % n = P.h ^ (dotNat P.rs ms' + r'.toNat) % n := by
  obtain ⟨P', hP', wf, hPn, -, lg, lr, hlog⟩ := C69_generated n x ws hn hx
  rw [hP] at hP'
  cases hP'
  rw [hPn] at hp
  obtain ⟨p', hp', Gd⟩ := create_good (gs := P.gs) (h := P.h) (n := n) (k := k) (by omega) hk hk'
  rw [hp] at hp'
  cases hp'
  have com : ∀ (ms : List Int) (r : Int), verify p c ms r = .ok true →
      c = P.h ^ (dotNat P.rs ms + r.toNat) % n := by
    intro ms r h
    have v : Valid P.gs ms r := by
      by_contra v
      rw [(Gd.refuse v c).2] at h
      cases h
    rw [Gd.verify v] at h
    simp only [Res.ok.injEq, decide_eq_true_eq] at h
    rw [h]
    unfold commitment
    rw [emod_eq_iff (by omega)]
    push_cast
    rw [prodOfPowers_log (by omega : 0 < n) P.gs P.rs ms (by omega)
      (fun i g r h1 h2 => (hlog i g r h1 h2).1), pow_add]
  rw [← com ms r h1, com ms' r' h2]

/-- `n = 77`, `h = 4`, two generators: the order of `h` is 15 and 77 = 5 * 15 + 2, so each
commitment is opened by five or six draws. -/
example : ∃ P p, generateParameters 77 2 [3, 5] = .ok P ∧ create P.gs P.h P.n 2 = .ok p ∧
    Nat.count (fun r => verify p 4 [1, 2] (r : Int) = .ok true) 77 = 5 := by
  refine ⟨⟨[64, 23], 4, 77, [3, 5]⟩, _, by decide +kernel, by rfl, ?_⟩
  decide +kernel

end PJC.Ped
