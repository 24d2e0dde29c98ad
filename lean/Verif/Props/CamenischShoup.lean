import Mathlib.Tactic.NormNum.Prime
import Verif.Lemmas.CamenischShoup
import Verif.Props.BigNum
/-
Properties C54-C56: the vector Camenisch–Shoup cryptosystem.
-/
namespace PJC.Props
open PJC

/-- Specification: the plaintext vector of length `len` represented by the message list `ms`:
entries are taken modulo `n^s`, omitted entries are zero. -/
def csPlain (n s len : Nat) (ms : List Int) : List Int :=
  (List.range len).map fun i => ms.getD i 0 % (n : Int) ^ s

/-- Specification of a key pair: `g` is a unit and `ys[i] = g ^ xs[i]` modulo `n^(s+1)`. -/
def CsKeyPair (n s : Nat) (g : Int) (ys xs : List Int) : Prop :=
  Int.gcd g n = 1 ∧ ys.length = xs.length ∧ (∀ x ∈ xs, 0 ≤ x) ∧
    ∀ i < xs.length, ys.getD i 0 % (n : Int) ^ (s + 1) =
      g ^ (xs.getD i 0).toNat % (n : Int) ^ (s + 1)

theorem CsKeyPair.keyRel {n s : Nat} {g : Int} {ys xs : List Int} (h : CsKeyPair n s g ys xs) :
    Cs.KeyRel n s g ys xs :=
  ⟨Int.isCoprime_iff_gcd_eq_one.2 h.1, h.2.1, h.2.2.1, h.2.2.2⟩

/-- The library's key generation produces such a pair, for all draws allowed by the sampling
functions, and the constructors of both objects accept it when `n` is odd and has no prime factor
up to `s`. -/
theorem C54_generated_keys (n s : Nat) (hn : 1 < n) (x : Int) (xs : List Int)
    (hx : Int.gcd x ((n : Int) ^ (s + 1)) = 1) (hxs : ∀ y ∈ xs, 0 ≤ y) :
    ∃ pk sk, Cs.generateKeyPair n s x xs = .ok (pk, sk) ∧ pk.n = n ∧ pk.s = s ∧ sk.xs = xs ∧
      CsKeyPair n s pk.g pk.ys sk.xs ∧
      (n % 2 = 1 → (∀ i : Nat, 1 ≤ i → i ≤ s → Nat.Coprime i n) → ∀ cfg : ExpCfg,
        ∃ pub priv, Cs.newPublic cfg n s pk.g pk.ys = .ok pub ∧
          Cs.newPrivate cfg n s pk.g pk.ys sk.xs = .ok priv) := by
  have hps1 : (0 : Int) < (n : Int) ^ (s + 1) := pow_pos (by omega) _
  have hnn : ¬ (2 * (n : Int) ^ s < 0) := by
    have : (0 : Int) ≤ (n : Int) ^ s := by positivity
    omega
  set g := x ^ (2 * (n : Int) ^ s).toNat % (n : Int) ^ (s + 1) with hg
  have hgen : Cs.getGenerator n s x = .ok g := by
    simp only [Cs.getGenerator, BN.modExp, hnn, if_false, ne_of_gt hps1, hg]
  have hys : xs.mapM (fun x => BN.modExp g x ((n : Int) ^ (s + 1))) =
      .ok (xs.map fun x => g ^ x.toNat % (n : Int) ^ (s + 1)) := by
    rw [Cs.mapM_ok_iff, List.forall₂_map_right_iff]
    apply List.forall₂_same.2
    intro y hy
    have := hxs y hy
    simp only [BN.modExp, show ¬ y < 0 by omega, if_false, ne_of_gt hps1]
  refine ⟨⟨n, s, g, xs.map fun x => g ^ x.toNat % (n : Int) ^ (s + 1)⟩, ⟨xs⟩,
    by simp only [Cs.generateKeyPair, hgen, Res.ok_bind, hys, Res.pure_eq],
    rfl, rfl, rfl, ⟨?_, by simp, hxs, ?_⟩, ?_⟩
  · apply Int.isCoprime_iff_gcd_eq_one.1
    have h1 : IsCoprime x (n : Int) :=
      (IsCoprime.pow_right_iff (by omega)).1 (Int.isCoprime_iff_gcd_eq_one.2 hx)
    exact DJ.isCoprime_of_modEq
      (DJ.modEq_of_dvd' (DJ.emod_modEq _ _) (dvd_pow_self _ (by omega))).symm h1.pow_left
  · intro i hi
    simp only
    rw [List.getD_eq_getElem _ _ (by simpa using hi), List.getD_eq_getElem _ _ hi]
    simp
  · intro hodd hco cfg
    obtain ⟨sk, hsk⟩ := Cs.newPrivate_ok cfg n s g
      (xs.map fun x => g ^ x.toNat % (n : Int) ^ (s + 1)) xs hn hodd hco
      ⟨Int.emod_nonneg _ hps1.ne', Int.emod_lt_of_pos _ hps1⟩ (by
        intro y hy
        obtain ⟨x, -, rfl⟩ := List.mem_map.1 hy
        exact ⟨Int.emod_nonneg _ hps1.ne', Int.emod_lt_of_pos _ hps1⟩) (by simp)
    have h2 := hsk
    unfold Cs.newPrivate at h2
    simp only [Res.bind_eq_ok] at h2
    obtain ⟨pub, hpub, -⟩ := h2
    exact ⟨pub, sk, hpub, hsk⟩

/-- C54: for every key pair, vector length, message list and randomness accepted by the API, the
encryption succeeds and decrypts to the messages (mod `n^s`, zero where omitted). -/
theorem C54_round_trip (cfg cfg' : ExpCfg) (n s : Nat) (hn : 0 < n) (g : Int) (ys xs : List Int)
    (hk : CsKeyPair n s g ys xs) (pk : CsPublic) (sk : CsPrivate)
    (hpk : Cs.newPublic cfg n s g ys = .ok pk) (hsk : Cs.newPrivate cfg' n s g ys xs = .ok sk)
    (ms : List Int) (hms : ms.length ≤ ys.length) :
    (∀ r, 0 ≤ r → (Int.gcd r n = 1 ∨ r = 0) →
      ∃ ct, Cs.encryptWithRand pk ms r = .ok ct ∧
        Cs.decrypt sk ct = .ok (csPlain n s ys.length ms)) ∧
    (∀ r, 0 ≤ r → Int.gcd r n = 1 → (∀ m ∈ ms, 0 ≤ m) →
      ∃ ct, Cs.encrypt pk ms r = .ok ct ∧ Cs.encryptAndGetRand pk ms r = .ok (ct, r) ∧
        Cs.decrypt sk ct = .ok (csPlain n s ys.length ms)) ∧
    (∀ r, 0 ≤ r → (Int.gcd r n = 1 ∨ r = 0) →
      ∃ ct, Cs.encryptWithRand sk.pub ms r = .ok ct ∧
        Cs.decrypt sk ct = .ok (csPlain n s ys.length ms)) := by
  have K := hk.keyRel
  have P := Cs.newPublic_good hn hpk
  have S := Cs.newPrivate_good hn hsk
  have main : ∀ r, 0 ≤ r → (Int.gcd r n = 1 ∨ r = 0) →
      ∃ ct, Cs.encryptWithRand pk ms r = .ok ct ∧
        Cs.decrypt sk ct = .ok (csPlain n s ys.length ms) := by
    intro r h0 h1
    obtain ⟨ct, hct, hok, -⟩ := Cs.encryptWithRand_spec P K hms h0 h1
    refine ⟨ct, hct, ?_⟩
    rw [Cs.decrypt_spec S K.nonneg hok, csPlain, K.len]
  refine ⟨main, fun r h0 h1 hm => ?_, fun r h0 h1 => ?_⟩
  · obtain ⟨ct, hct, hdec⟩ := main r h0 (Or.inl h1)
    have hany : ms.any (fun m => decide (m < 0)) = false := by
      rw [List.any_eq_false]
      intro m hm'
      have := hm m hm'
      simp only [decide_eq_true_eq]
      omega
    have h2 : Cs.encryptAndGetRand pk ms r = .ok (ct, r) := by
      unfold Cs.encryptAndGetRand
      rw [hany]
      simp [hct]
    exact ⟨ct, by simp [Cs.encrypt, h2], h2, hdec⟩
  · obtain ⟨ct, hct, hok, -⟩ := Cs.encryptWithRand_spec S.pub K hms h0 h1
    refine ⟨ct, hct, ?_⟩
    rw [Cs.decrypt_spec S K.nonneg hok, csPlain, K.len]

/-- C54: too many messages, a negative message (for `Encrypt`) or bad randomness are refused. -/
theorem C54_refused (cfg : ExpCfg) (n s : Nat) (hn : 0 < n) (g : Int) (ys : List Int)
    (pk : CsPublic) (hpk : Cs.newPublic cfg n s g ys = .ok pk) (ms : List Int) (r : Int) :
    (ys.length < ms.length → Cs.encryptWithRand pk ms r = .err .invalidArgument) ∧
    (r < 0 ∨ (r ≠ 0 ∧ Int.gcd r n ≠ 1) → Cs.encryptWithRand pk ms r = .err .invalidArgument) ∧
    ((∃ m ∈ ms, m < 0) → Cs.encrypt pk ms r = .err .invalidArgument) := by
  have P := Cs.newPublic_good hn hpk
  have hfl : pk.ysFbe.length = ys.length := (P.ysF.length_eq).symm
  refine ⟨fun h => ?_, fun h => ?_, fun ⟨m, hm, h⟩ => ?_⟩
  · unfold Cs.encryptWithRand
    rw [hfl, if_pos h]
  · unfold Cs.encryptWithRand
    split
    · rfl
    · rw [if_pos (by rw [P.hn]; tauto)]
  · have : ms.any (fun m => decide (m < 0)) = true := by
      rw [List.any_eq_true]
      exact ⟨m, hm, by simpa using h⟩
    unfold Cs.encrypt Cs.encryptAndGetRand
    rw [this]
    rfl

/-! ### C55 -/

/-- Histories of API calls producing a ciphertext; the index function is the result of the same
operations on integer vectors. -/
inductive CsMade (pk : CsPublic) : (Nat → Int) → CsCt → Prop
  | encryptWithRand {ms r ct} : Cs.encryptWithRand pk ms r = .ok ct →
      CsMade pk (fun i => ms.getD i 0) ct
  | encrypt {ms r ct} : Cs.encrypt pk ms r = .ok ct → CsMade pk (fun i => ms.getD i 0) ct
  | add {m1 m2 c1 c2 c} : CsMade pk m1 c1 → CsMade pk m2 c2 → Cs.add pk c1 c2 = .ok c →
      CsMade pk (fun i => m1 i + m2 i) c
  | multiply {m c k c'} : CsMade pk m c → Cs.multiply pk c k = .ok c' →
      CsMade pk (fun i => m i * k) c'

theorem csMade_ok {cfg : ExpCfg} {n s : Nat} {g : Int} {ys xs : List Int}
    (K : Cs.KeyRel n s g ys xs) {pk : CsPublic} (P : Cs.PubGood cfg pk n s g ys) {m : Nat → Int}
    {ct : CsCt} (h : CsMade pk m ct) : Cs.CtOk n s xs m ct := by
  have henc : ∀ {ms r ct}, Cs.encryptWithRand pk ms r = .ok ct →
      Cs.CtOk n s xs (fun i => ms.getD i 0) ct := by
    intro ms r ct h
    have hh := h
    unfold Cs.encryptWithRand at hh
    split at hh
    · cases hh
    rename_i hl
    split at hh
    · cases hh
    rename_i hr
    rw [P.hn] at hr
    have hfl : pk.ysFbe.length = ys.length := (P.ysF.length_eq).symm
    obtain ⟨ct', h1, h2, -⟩ := Cs.encryptWithRand_spec P K (ms := ms) (r := r) (by omega)
      (by by_contra hc; exact hr (Or.inl (by omega)))
      (by by_contra hc; exact hr (Or.inr (by tauto)))
    rw [h1] at h
    cases h
    exact h2
  induction h with
  | encryptWithRand h => exact henc h
  | encrypt h =>
    unfold Cs.encrypt Cs.encryptAndGetRand at h
    simp only [Res.bind_eq_ok, Res.pure_eq, Res.ok.injEq] at h
    obtain ⟨x, hx, rfl⟩ := h
    split at hx
    · cases hx
    simp only [Res.bind_eq_ok, Res.ok.injEq] at hx
    obtain ⟨ct, hct, rfl⟩ := hx
    exact henc hct
  | add _ _ h i1 i2 =>
    obtain ⟨c, h1, h2⟩ := Cs.add_spec P K.len i1 i2
    rw [h1] at h
    cases h
    exact h2
  | @multiply m c k c' _ h i =>
    have hk : 0 ≤ k := by
      by_contra hk
      unfold Cs.multiply BN.modExp at h
      rw [if_pos (by omega)] at h
      cases h
    obtain ⟨c, h1, h2⟩ := Cs.multiply_spec P K.len i hk
    rw [h1] at h
    cases h
    exact h2

/-- C55: any finite combination of encryptions, additions and multiplications by scalars
decrypts to the same combination of the plaintext vectors, componentwise modulo `n^s`. -/
theorem C55_homomorphic (cfg cfg' : ExpCfg) (n s : Nat) (hn : 0 < n) (g : Int) (ys xs : List Int)
    (hk : CsKeyPair n s g ys xs) (pk : CsPublic) (sk : CsPrivate)
    (hpk : Cs.newPublic cfg n s g ys = .ok pk) (hsk : Cs.newPrivate cfg' n s g ys xs = .ok sk)
    (m : Nat → Int) (ct : CsCt) (h : CsMade pk m ct) :
    Cs.decrypt sk ct = .ok ((List.range ys.length).map fun i => m i % (n : Int) ^ s) := by
  have K := hk.keyRel
  rw [Cs.decrypt_spec (Cs.newPrivate_good hn hsk) K.nonneg
    (csMade_ok K (Cs.newPublic_good hn hpk) h), K.len]

/-- C55: on such ciphertexts `Add` and `Multiply` by a non-negative scalar return normally. -/
theorem C55_operations_total (cfg : ExpCfg) (n s : Nat) (hn : 0 < n) (g : Int) (ys xs : List Int)
    (hk : CsKeyPair n s g ys xs) (pk : CsPublic) (hpk : Cs.newPublic cfg n s g ys = .ok pk)
    (m m' : Nat → Int) (ct ct' : CsCt) (h : CsMade pk m ct) (h' : CsMade pk m' ct') :
    (∃ c, Cs.add pk ct ct' = .ok c) ∧ ∀ k, 0 ≤ k → ∃ c, Cs.multiply pk ct k = .ok c := by
  have K := hk.keyRel
  have P := Cs.newPublic_good hn hpk
  obtain ⟨c, hc, -⟩ := Cs.add_spec P K.len (csMade_ok K P h) (csMade_ok K P h')
  refine ⟨⟨c, hc⟩, fun k hk => ?_⟩
  obtain ⟨c, hc, -⟩ := Cs.multiply_spec P K.len (csMade_ok K P h) hk
  exact ⟨c, hc⟩

/-! ### C56 -/

/-- C56 (full statement): every ciphertext accepted by `ParseCiphertextProto` can be passed to
`Add` (with itself), `Multiply` and `Decrypt` without an abort or undefined behaviour. -/
def C56Statement (pk : CsPublic) (sk : CsPrivate) : Prop :=
  ∀ p ct, Cs.parseCiphertextProto pk p = .ok ct →
    (Cs.add pk ct ct).returns ∧ (∀ k, 0 ≤ k → (Cs.multiply pk ct k).returns) ∧
      (Cs.decrypt sk ct).returns

/-- C56 is false for every key: the ciphertext proto without components is accepted, `Add` aborts
on it and `Multiply` reads out of range. -/
theorem C56_short_ciphertext_fails (cfg cfg' : ExpCfg) (n s : Nat) (hn : 0 < n) (g : Int)
    (ys xs : List Int) (hys : ys ≠ []) (pk : CsPublic) (sk : CsPrivate)
    (hpk : Cs.newPublic cfg n s g ys = .ok pk) (_hsk : Cs.newPrivate cfg' n s g ys xs = .ok sk) :
    (∃ ct, Cs.parseCiphertextProto pk ⟨[], []⟩ = .ok ct ∧ Cs.add pk ct ct = .crash ∧
      ∀ k, 0 ≤ k → Cs.multiply pk ct k = .ub) ∧ ¬ C56Statement pk sk := by
  have P := Cs.newPublic_good hn hpk
  have hps1 : (0 : Int) < (n : Int) ^ (s + 1) := pow_pos (by omega) _
  have hlen : 0 < ys.length := List.length_pos_iff.2 hys
  have h1 : Cs.parseCiphertextProto pk ⟨[], []⟩ = .ok ⟨0, []⟩ := by
    simp only [Cs.parseCiphertextProto, BN.ofBytes, List.foldl_nil, Nat.cast_zero, P.hmod,
      parseBigNumVectorProto, List.map_nil, List.length_nil, List.any_nil]
    rw [if_neg (by omega), if_neg (by omega)]
    rfl
  have h2 : Cs.add pk ⟨0, []⟩ ⟨0, []⟩ = .crash := by
    simp only [Cs.add, List.length_nil, ne_eq, not_true_eq_false, if_false, P.hlen]
    rw [if_pos (by omega)]
  have h3 : ∀ k, 0 ≤ k → Cs.multiply pk ⟨0, []⟩ k = .ub := by
    intro k hk
    obtain ⟨l, hl⟩ : ∃ l, pk.len = l + 1 := ⟨pk.len - 1, by rw [P.hlen]; omega⟩
    simp only [Cs.multiply, BN.modExp, P.hmod, ne_of_gt hps1, if_false, not_lt.2 hk, hl,
      Cs.multiplyLoop, Res.ok_bind, Res.ub_bind]
  refine ⟨⟨_, h1, h2, h3⟩, fun hC => ?_⟩
  have := (hC _ _ h1).1
  rw [h2] at this
  exact this

/-- C56, the part that holds: `Decrypt` is always safe on any ciphertext whatever, and a parsed
ciphertext that has the full number of components can be passed to `Add` and `Multiply`.  Missing
with respect to C56: ciphertexts with fewer components, for which the claim is false. -/
theorem C56_parsed_ciphertexts_partial (cfg cfg' : ExpCfg) (n s : Nat) (hn : 0 < n) (g : Int)
    (ys xs : List Int) (hxs : ∀ x ∈ xs, 0 ≤ x) (pk : CsPublic) (sk : CsPrivate)
    (hpk : Cs.newPublic cfg n s g ys = .ok pk) (hsk : Cs.newPrivate cfg' n s g ys xs = .ok sk)
    (p : CsCtProto) (ct : CsCt) (hp : Cs.parseCiphertextProto pk p = .ok ct) :
    (Cs.decrypt sk ct).returns ∧
    (p.es.length = ys.length → (∃ c, Cs.add pk ct ct = .ok c) ∧
      ∀ k, 0 ≤ k → ∃ c, Cs.multiply pk ct k = .ok c) := by
  have P := Cs.newPublic_good hn hpk
  have S := Cs.newPrivate_good hn hsk
  have hps1 : (0 : Int) < (n : Int) ^ (s + 1) := pow_pos (by omega) _
  constructor
  · unfold Cs.decrypt
    split
    · trivial
    · rw [S.hxs]
      rcases Cs.decLoop_safe S ct.u ct.es xs hxs with ⟨r, hr⟩ | hr
      · rw [hr]; trivial
      · rw [hr]; trivial
  · intro hl
    have hct : ct.es.length = ys.length := by
      simp only [Cs.parseCiphertextProto] at hp
      split at hp
      · cases hp
      split at hp
      · cases hp
      split at hp
      · cases hp
      cases hp
      simpa [parseBigNumVectorProto] using hl
    constructor
    · obtain ⟨r, hr⟩ := Cs.mapM_ok_of (f := fun e : Int × Int => BN.modMul e.1 e.2 pk.modulus)
        (l := ct.es.zip ct.es) (fun e _ => ⟨e.1 * e.2 % (n : Int) ^ (s + 1), by
          simp only [BN.modMul, BN.mod, P.hmod, ne_of_gt hps1, if_false]⟩)
      unfold Cs.add
      rw [if_neg (by simp), if_neg (by rw [P.hlen]; omega), hr]
      simp only [BN.modMul, BN.mod, P.hmod, ne_of_gt hps1, if_false, Res.ok_bind, Res.pure_eq]
      exact ⟨_, rfl⟩
    · intro k hk
      unfold Cs.multiply
      rw [P.hmod, Cs.multiplyLoop_spec hk hps1 _ _ (by rw [P.hlen]; omega)]
      simp only [BN.modExp, ne_of_gt hps1, if_false, not_lt.2 hk, Res.ok_bind, Res.pure_eq]
      exact ⟨_, rfl⟩

/-! ### Non-vacuity -/

/-- A concrete key (n = 35, s = 2, two components) for which everything above applies, with the
conclusion of C55 for a non-trivial history. -/
example (cfg : ExpCfg) : ∃ pk sk key priv,
    Cs.generateKeyPair (35 : Nat) 2 3 [4, 9] = .ok (key, priv) ∧
    Cs.newPublic cfg (35 : Nat) 2 key.g key.ys = .ok pk ∧
    Cs.newPrivate cfg (35 : Nat) 2 key.g key.ys priv.xs = .ok sk ∧ key.ys ≠ [] ∧
    ∃ c, CsMade pk (fun i => ([7].getD i 0 + [1224, 5].getD i 0) * 3) c ∧
      Cs.decrypt sk c = .ok [(7 + 1224) * 3 % 35 ^ 2, (0 + 5) * 3] := by
  obtain ⟨key, priv, h1, hn, hs, hx, hk, hc⟩ := C54_generated_keys 35 2 (by decide) 3 [4, 9]
    (by decide) (by decide)
  obtain ⟨pk, sk, hpk, hsk⟩ := hc rfl (by
    intro i h1 h2
    have : i = 1 ∨ i = 2 := by omega
    rcases this with rfl | rfl <;> decide) cfg
  have hlen : key.ys.length = 2 := by rw [hk.2.1, hx]; rfl
  have e1 := (C54_round_trip cfg cfg 35 2 (by decide) key.g key.ys priv.xs hk pk sk hpk hsk [7]
    (by rw [hlen]; decide)).1 12 (by decide) (Or.inl (by decide))
  have e2 := (C54_round_trip cfg cfg 35 2 (by decide) key.g key.ys priv.xs hk pk sk hpk hsk
    [1224, 5] (by rw [hlen]; decide)).2.1 34 (by decide) (by decide) (by decide)
  obtain ⟨c1, hc1, -⟩ := e1
  obtain ⟨c2, hc2, -⟩ := e2
  have m1 : CsMade pk (fun i => [7].getD i 0) c1 := .encryptWithRand hc1
  have m2 : CsMade pk (fun i => [1224, 5].getD i 0) c2 := .encrypt hc2
  obtain ⟨c3, hc3⟩ := (C55_operations_total cfg 35 2 (by decide) key.g key.ys priv.xs hk pk hpk
    _ _ c1 c2 m1 m2).1
  have m3 := CsMade.add m1 m2 hc3
  obtain ⟨c4, hc4⟩ := (C55_operations_total cfg 35 2 (by decide) key.g key.ys priv.xs hk pk hpk
    _ _ c3 c3 m3 m3).2 3 (by decide)
  have m4 := CsMade.multiply m3 hc4
  refine ⟨pk, sk, key, priv, h1, hpk, hsk, by rw [← List.length_pos_iff, hlen]; decide, c4, m4, ?_⟩
  rw [C55_homomorphic cfg cfg 35 2 (by decide) key.g key.ys priv.xs hk pk sk hpk hsk _ _ m4, hlen]
  decide

end PJC.Props
