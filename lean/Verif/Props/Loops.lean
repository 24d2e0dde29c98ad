import Mathlib.Algebra.Polynomial.Roots
import Mathlib.Tactic.ComputeDegree
import Verif.Lemmas.Chain
import Verif.Lemmas.Blocks
import Verif.Props.Nist
import Verif.Model.KeyGen
set_option linter.unusedSectionVars false
/-
C126: loops that draw or hash until a value is suitable end soon with high probability.

Specification: `Curve.numPoints` (Props/Nist.lean) counts the points of a curve, `Nat.totient` the
numbers coprime to a modulus.
-/
namespace PJC.Loops
open Finset PJC.Oracle PJC.Prob PJC.Curve

/-! ### Hashing to the curve -/

section Count
variable {p : Nat} [Fact p.Prime]

/-- x-coordinates of points that are not their own negatives. -/
noncomputable def goodX (a b : ZMod p) : Finset (ZMod p) :=
  open scoped Classical in univ.filter fun x => ∃ y, y ≠ 0 ∧ y ^ 2 = x ^ 3 + a * x + b

theorem roots_le (a b : ZMod p) : (univ.filter fun x : ZMod p => x ^ 3 + a * x + b = 0).card ≤ 3 := by
  classical
  let P : Polynomial (ZMod p) := Polynomial.X ^ 3 + Polynomial.C a * Polynomial.X + Polynomial.C b
  have hd : P.natDegree = 3 := by
    show (Polynomial.X ^ 3 + Polynomial.C a * Polynomial.X + Polynomial.C b).natDegree = 3
    compute_degree!
  have hP : P ≠ 0 := by
    intro h
    rw [h] at hd
    simp at hd
  calc (univ.filter fun x : ZMod p => x ^ 3 + a * x + b = 0).card ≤ P.roots.toFinset.card := by
        apply card_le_card
        intro x hx
        rw [Multiset.mem_toFinset, Polynomial.mem_roots hP]
        simpa [P] using (mem_filter.1 hx).2
    _ ≤ P.roots.card := Multiset.toFinset_card_le _
    _ ≤ P.natDegree := Polynomial.card_roots' P
    _ = 3 := hd

/-- A curve with `N` points has at least `(N - 4) / 2` such x-coordinates. -/
theorem numPoints_le (a b : Int) : numPoints p a b ≤ 2 * (goodX (a : ZMod p) (b : ZMod p)).card + 4 := by
  classical
  unfold numPoints
  rw [Nat.card_eq_fintype_card, Fintype.card_subtype]
  have h1 : (univ.filter fun xy : ZMod p × ZMod p => xy.2 ^ 2 = xy.1 ^ 3 + a * xy.1 + b).card =
      ∑ x : ZMod p, (univ.filter fun y : ZMod p => y ^ 2 = x ^ 3 + a * x + b).card := by
    rw [← card_sigma]
    apply card_bij' (fun t _ => ⟨t.1, t.2⟩) (fun t _ => (t.1, t.2)) <;> simp
  have h2 : ∀ x : ZMod p, (univ.filter fun y : ZMod p => y ^ 2 = x ^ 3 + a * x + b).card ≤
      (if x ∈ goodX (a : ZMod p) (b : ZMod p) then 2 else 0) + (if x ^ 3 + a * x + b = 0 then 1 else 0) := by
    intro x
    by_cases hx : x ∈ goodX (a : ZMod p) (b : ZMod p)
    · rw [if_pos hx]
      obtain ⟨y, hy, e⟩ := (mem_filter.1 hx).2
      refine le_trans ?_ (Nat.le_add_right 2 _)
      refine (card_le_card (t := {y, -y}) fun z hz => ?_).trans card_le_two
      have hz := (mem_filter.1 hz).2
      rw [← e] at hz
      rcases sq_eq_sq_iff_eq_or_eq_neg.1 hz with h | h <;> simp [h]
    · rw [if_neg hx, zero_add]
      have h0 : ∀ y : ZMod p, y ^ 2 = x ^ 3 + a * x + b → y = 0 := by
        intro y e
        by_contra hy
        exact hx (mem_filter.2 ⟨mem_univ _, y, hy, e⟩)
      split
      · refine (card_le_card (t := {0}) fun z hz => ?_).trans_eq (card_singleton _)
        rw [mem_singleton]
        exact h0 z (mem_filter.1 hz).2
      · rename_i hne
        rw [Nat.le_zero, card_eq_zero, filter_eq_empty_iff]
        intro y _ e
        have := h0 y e
        rw [this] at e
        exact hne (by rw [← e]; ring)
  have h3 := roots_le (a : ZMod p) (b : ZMod p)
  have h4 : ∑ x : ZMod p, ((if x ∈ goodX (a : ZMod p) (b : ZMod p) then 2 else 0) +
      (if x ^ 3 + a * x + b = 0 then 1 else 0)) = 2 * (goodX (a : ZMod p) (b : ZMod p)).card +
      (univ.filter fun x : ZMod p => x ^ 3 + a * x + b = 0).card := by
    rw [sum_add_distrib, ← sum_filter, ← sum_filter, sum_const, sum_const, filter_mem_eq_inter,
      univ_inter]
    simp [mul_comm]
  rw [h1]
  have := sum_le_sum fun x (_ : x ∈ (univ : Finset (ZMod p))) => h2 x
  omega

end Count

/-- The values below `p` that are not suitable. -/
noncomputable def badX (c : Curve) (sqrt : BigNum → BigNum → Res BigNum) (p : Nat) : Finset Nat :=
  open scoped Classical in (range p).filter fun v => ∀ P, c.hashInternal sqrt (v : Int) ≠ .ok P

theorem badX_card {c : Curve} {p : Nat} (h : c.Proper p) {sqrt : BigNum → BigNum → Res BigNum}
    (hs : SqrtOk sqrt p) :
    ((badX c sqrt p).card : ℚ) ≤ p - ((numPoints p c.a c.b : ℚ) - 4) / 2 := by
  classical
  have : Fact p.Prime := ⟨h.prime⟩
  have : NeZero p := ⟨h.prime.ne_zero⟩
  have h1 : badX c sqrt p ⊆ range p \ (goodX (c.a : ZMod p) (c.b : ZMod p)).image ZMod.val := by
    intro v hv
    obtain ⟨hv1, hv2⟩ := mem_filter.1 hv
    refine mem_sdiff.2 ⟨hv1, fun hi => ?_⟩
    obtain ⟨x, hx, rfl⟩ := mem_image.1 hi
    obtain ⟨y, hy, e⟩ := (mem_filter.1 hx).2
    rcases h.hashInternal_spec hs (x.val : Int) with ⟨y', hy', -⟩ | ⟨-, hz⟩
    · exact hv2 _ hy'
    · have hxv : ((x.val : Int) % p) = x.val := by
        rw [Int.emod_eq_of_lt (by positivity) (by exact_mod_cast ZMod.val_lt x)]
      rw [hxv] at hz
      have := hz (y.val : Int) (by
        rw [onCurve_iff, h.hp]
        refine ⟨by positivity, by exact_mod_cast ZMod.val_lt x, by positivity,
          by exact_mod_cast ZMod.val_lt y, ?_⟩
        apply Int.emod_eq_zero_of_dvd
        rw [← ZMod.intCast_zmod_eq_zero_iff_dvd]
        push_cast
        rw [ZMod.natCast_zmod_val, ZMod.natCast_zmod_val]
        linear_combination e)
      apply hy
      have : y.val = 0 := by exact_mod_cast this
      exact (ZMod.val_eq_zero y).1 this
  have h2 : (badX c sqrt p).card ≤ p - (goodX (c.a : ZMod p) (c.b : ZMod p)).card := by
    refine (card_le_card h1).trans_eq ?_
    rw [card_sdiff_of_subset, card_range, card_image_of_injective _ (ZMod.val_injective p)]
    intro v hv
    obtain ⟨x, -, rfl⟩ := mem_image.1 hv
    exact mem_range.2 (ZMod.val_lt x)
  have h3 := numPoints_le (p := p) c.a c.b
  have h4 : (goodX (c.a : ZMod p) (c.b : ZMod p)).card ≤ p := by
    refine (card_le_univ _).trans_eq ?_
    exact ZMod.card p
  have h5 : ((badX c sqrt p).card : ℚ) ≤ p - (goodX (c.a : ZMod p) (c.b : ZMod p)).card := by
    have : (badX c sqrt p).card + (goodX (c.a : ZMod p) (c.b : ZMod p)).card ≤ p := by omega
    have : (((badX c sqrt p).card + (goodX (c.a : ZMod p) (c.b : ZMod p)).card : Nat) : ℚ) ≤ p := by
      exact_mod_cast this
    push_cast at this
    linarith
  have h6 : (numPoints p c.a c.b : ℚ) ≤ 2 * (goodX (c.a : ZMod p) (c.b : ZMod p)).card + 4 := by
    exact_mod_cast h3
  linarith

/-- What the loop goes on with. -/
noncomputable def nextX (c : Curve) (sqrt : BigNum → BigNum → Res BigNum) (v : Nat) : Option Bytes :=
  open scoped Classical in
  if ∃ P, c.hashInternal sqrt (v : Int) = .ok P then none else some (BN.natToBytes v)

theorem running_of_none {Y : Type} {c : Curve} {p : Nat} (h : c.Proper p)
    {sqrt : BigNum → BigNum → Res BigNum} (hs : SqrtOk sqrt p) {oracle : Bytes → Res BigNum}
    {o : Bytes → Y} {V : Y → Nat} (ho : ∀ s, oracle s = .ok (V (o s) : Int)) :
    ∀ (k : Nat) (m : Bytes), c.hashToCurve sqrt oracle k m = none →
      Running o (fun y => nextX c sqrt (V y)) k m
  | 0, _, _ => trivial
  | k + 1, m, hn => by
    simp only [hashToCurve, ho, hashLoop] at hn
    simp only [Running]
    rcases h.hashInternal_spec hs (V (o m) : Int) with ⟨y, hy, -⟩ | ⟨he, -⟩
    · rw [hy] at hn
      cases hn
    · rw [he] at hn
      have hnx : nextX c sqrt (V (o m)) = some (BN.natToBytes (V (o m))) := by
        unfold nextX
        rw [if_neg]
        rintro ⟨P, hP⟩
        rw [he] at hP
        cases hP
      rw [BN.toBytes_of_nonneg (by positivity), Res.ok_bind, Int.toNat_natCast, ho] at hn
      rw [hnx]
      apply running_of_none h hs ho k
      simp only [hashToCurve, ho]
      exact hn

theorem bitLength_lt (p : Nat) : p < 2 ^ BN.bitLength (p : Int) := by
  unfold BN.bitLength
  rw [Int.natAbs_natCast]
  exact Nat.lt_size_self p

open scoped Classical in
/-- **C126**, `GetPointByHashingToCurveSha256/384/512` (`L` is 32, 48 or 64): when the hash function is
random on the strings it may be asked for, it has not returned after `k` rounds with probability at
most `(1 - (N - 4) / 2p + 2^-8L)^k + 2 k^2 / p`, where `N` is the number of points of the curve. -/
theorem C126_hash {c : Curve} {p : Nat} (h : c.Proper p) (hbits : BN.bitLength c.p ≤ 4096)
    {sqrt : BigNum → BigNum → Res BigNum} (hs : SqrtOk sqrt p) (L : Nat)
    (hL : L = 32 ∨ L = 48 ∨ L = 64) (B : Bytes → Bytes)
    (B' : Bytes → Blocks (Ctx.iterCount (8 * L) c.p) L) (m : Bytes) (D : Finset Bytes) (hm : m ∈ D)
    (hD : ∀ v < p, BN.natToBytes v ∈ D) (k : Nat) :
    prob (fun f : D → Blocks (Ctx.iterCount (8 * L) c.p) L =>
      c.hashToCurve sqrt (fun s => Ctx.randomOracle (blockHash B (graft B' D f)) (8 * L) s c.p) k m = none) ≤
      (1 - ((numPoints p c.a c.b : ℚ) - 4) / (2 * p) + 1 / 2 ^ (8 * L)) ^ k + k ^ 2 * (2 / p) := by
  have hp0 : 0 < p := h.prime.pos
  have hpq : (0 : ℚ) < p := by exact_mod_cast hp0
  rw [h.hp] at hbits
  revert B'
  rw [h.hp]
  intro B'
  generalize hmm : Ctx.iterCount (8 * L) (p : Int) = M at B' ⊢
  obtain ⟨bits, hbit⟩ : ∃ b, BN.bitLength (p : Int) = b := ⟨_, rfl⟩
  have hplt : p < 2 ^ bits := by rw [← hbit]; exact bitLength_lt p
  rw [hbit] at hbits
  have hM : M = (bits + 8 * L + 8 * L - 1) / (8 * L) := by rw [← hmm, Ctx.iterCount, hbit]
  obtain ⟨e, he⟩ : ∃ e, M * L * 8 = bits + 8 * L + e := by
    refine ⟨M * L * 8 - (bits + 8 * L), ?_⟩
    have : bits + 8 * L ≤ M * L * 8 := by
      rcases hL with rfl | rfl | rfl <;> omega
    omega
  have hM2 : M ≤ 255 ∧ M * (8 * L) < 130048 := by
    rcases hL with rfl | rfl | rfl <;> omega
  obtain ⟨w, hw⟩ : ∃ w, bits + 8 * L = w := ⟨_, rfl⟩
  have hwe : M * L * 8 = w + e := by rw [he, hw]
  let V : Blocks M L → Nat := fun y => value y / 2 ^ e % p
  have ho : ∀ (o : Bytes → Blocks M L) (s : Bytes),
      Ctx.randomOracle (blockHash B o) (8 * L) s p = .ok (V (o s) : Int) := fun o s =>
    randomOracle_blocks B o s hp0 hmm hM2.1 hM2.2 (by rw [he, hbit])
  set β : ℚ := 1 - ((numPoints p c.a c.b : ℚ) - 4) / (2 * p) + 1 / 2 ^ (8 * L) with hβ
  have hVlt : ∀ y, V y < p := fun y => Nat.mod_lt _ hp0
  have hbad : ∀ y : Blocks M L, nextX c sqrt (V y) ≠ none → V y ∈ badX c sqrt p := by
    intro y hy
    refine mem_filter.2 ⟨mem_range.2 (hVlt y), fun P hP => ?_⟩
    unfold nextX at hy
    rw [if_pos ⟨P, hP⟩] at hy
    exact hy rfl
  have hwp : (p : ℚ) / 2 ^ w ≤ 1 / 2 ^ (8 * L) := by
    rw [← hw, pow_add, div_le_div_iff₀ (by positivity) (by positivity)]
    have : (p : ℚ) ≤ 2 ^ bits := by exact_mod_cast hplt.le
    nlinarith [pow_pos (by norm_num : (0 : ℚ) < 2) (8 * L)]
  have h1 : prob (fun y : Blocks M L => nextX c sqrt (V y) ≠ none) ≤ β := by
    refine (prob_values hp0 hwe (badX c sqrt p) _ hbad).trans ?_
    have hb := badX_card h hs
    have hb2 : ((badX c sqrt p).card : ℚ) ≤ p := by
      have := card_filter_le (range p) fun v => ∀ P, c.hashInternal sqrt (v : Int) ≠ .ok P
      rw [card_range] at this
      exact_mod_cast this
    rw [mul_add, mul_one_div, mul_one_div]
    have e1 : ((badX c sqrt p).card : ℚ) / p ≤ 1 - ((numPoints p c.a c.b : ℚ) - 4) / (2 * p) := by
      rw [div_le_iff₀ hpq]
      refine hb.trans_eq ?_
      field_simp
    have e2 : ((badX c sqrt p).card : ℚ) / 2 ^ w ≤ p / 2 ^ w := by gcongr
    linarith
  have hγ : ∀ z, prob (fun y : Blocks M L => nextX c sqrt (V y) = some z) ≤ 2 / p := by
    intro z
    have : prob (fun y : Blocks M L => nextX c sqrt (V y) = some z) ≤ 1 / p + 1 / 2 ^ w := by
      apply prob_value hp0 hwe (BN.ofBytes z).toNat
      intro y hy
      unfold nextX at hy
      split at hy
      · cases hy
      · cases hy
        rw [BN.ofBytes_natToBytes, Int.toNat_natCast]
    refine this.trans ?_
    have : (1 : ℚ) / 2 ^ w ≤ 1 / p := by
      apply one_div_le_one_div_of_le hpq
      have : p ≤ 2 ^ w := hplt.le.trans (Nat.pow_le_pow_right (by norm_num) (by omega))
      exact_mod_cast this
    have e : (2 : ℚ) / p = 1 / p + 1 / p := by ring
    linarith
  have hβ0 : 0 ≤ β := (prob_nonneg _).trans h1
  by_cases hβ1 : β ≤ 1
  · have := chain_bound (fun y : Blocks M L => nextX c sqrt (V y)) hβ0 hβ1 (by positivity) h1 hγ k D ∅
      B' m hm (by
        intro y z hz
        left
        unfold nextX at hz
        split at hz
        · cases hz
        · cases hz
          exact hD _ (hVlt y)) (fun f : D → Blocks M L =>
        c.hashToCurve sqrt (fun s => Ctx.randomOracle (blockHash B (graft B' D f)) (8 * L) s p) k m = none)
      (fun f hf => running_of_none h hs (ho _) k m hf)
    refine this.trans_eq ?_
    rw [card_empty]
    push_cast
    ring
  · refine (prob_le_one _).trans ?_
    have h2 : (1 : ℚ) ≤ β ^ k := one_le_pow₀ (not_le.1 hβ1).le
    have h3 : (0 : ℚ) ≤ k ^ 2 * (2 / p) := by positivity
    linarith

theorem tail_aux {N p r : ℚ} (hr0 : 0 < r) (h : p ≤ (1 + r) * N) (hp : 4 ≤ r * p) :
    (1 / 2 - r) * (2 * p) ≤ N - 4 := by
  have hN : p * (1 - r) ≤ N := by
    by_contra hc
    push Not at hc
    nlinarith
  linarith

theorem tail_aux2 {r s t : ℚ} (hr : r = 1 / 2 ^ 100) (hs : s ≤ (1 / 2 + 2 * r) ^ 128)
    (ht : t ≤ 32768 * (1 / 2 ^ 200)) : s + t ≤ 1 / 2 ^ 127 := by
  have : (1 / 2 + 2 * ((1 : ℚ) / 2 ^ 100)) ^ 128 + 32768 * (1 / 2 ^ 200) ≤ 1 / 2 ^ 127 := by norm_num
  rw [← hr] at this
  linarith

theorem tail_num {N p : Nat} (h : 2 ^ 100 * p ≤ (2 ^ 100 + 1) * N) (hp : 2 ^ 200 ≤ p)
    {L : Nat} (hL : 32 ≤ L) {x : ℚ}
    (hx : x ≤ (1 - ((N : ℚ) - 4) / (2 * p) + 1 / 2 ^ (8 * L)) ^ 128 + ((128 : Nat) : ℚ) ^ 2 * (2 / p))
    (h0 : (0 : ℚ) ≤ 1 - ((N : ℚ) - 4) / (2 * p) + 1 / 2 ^ (8 * L)) : x ≤ 1 / 2 ^ 127 := by
  obtain ⟨a, ha⟩ : ∃ a, a = 100 := ⟨_, rfl⟩
  obtain ⟨b, hb⟩ : ∃ b, b = 200 := ⟨_, rfl⟩
  have hp0 : (0 : ℚ) < p := by
    have : 0 < p := lt_of_lt_of_le (by norm_num) hp
    exact_mod_cast this
  rw [← hb] at hp
  rw [← ha] at h
  have hpq : (2 : ℚ) ^ b ≤ p := by exact_mod_cast hp
  have hq : (2 : ℚ) ^ a * p ≤ (2 ^ a + 1) * N := by exact_mod_cast h
  obtain ⟨r, hr⟩ : ∃ r : ℚ, r = 1 / 2 ^ a := ⟨_, rfl⟩
  have hr0 : 0 < r := by rw [hr]; positivity
  have hra : r * 2 ^ a = 1 := by rw [hr]; field_simp
  have e1 : (1 : ℚ) / 2 ^ (8 * L) ≤ r := by
    rw [hr]
    exact one_div_le_one_div_of_le (by positivity) (pow_le_pow_right₀ (by norm_num) (by omega))
  have e2 : (1 : ℚ) / 2 - r ≤ ((N : ℚ) - 4) / (2 * p) := by
    rw [le_div_iff₀ (by positivity)]
    apply tail_aux hr0
    · have := mul_le_mul_of_nonneg_left hq hr0.le
      calc (p : ℚ) = r * 2 ^ a * p := by rw [hra, one_mul]
        _ = r * (2 ^ a * p) := by ring
        _ ≤ r * ((2 ^ a + 1) * N) := this
        _ = (r * 2 ^ a + r) * N := by ring
        _ = (1 + r) * N := by rw [hra]
    · have h4 : (4 : ℚ) * 2 ^ a ≤ 2 ^ b := by rw [ha, hb]; norm_num
      calc (4 : ℚ) = r * 2 ^ a * 4 := by rw [hra, one_mul]
        _ = r * (4 * 2 ^ a) := by ring
        _ ≤ r * p := mul_le_mul_of_nonneg_left (h4.trans hpq) hr0.le
  have e3 : (1 - ((N : ℚ) - 4) / (2 * p) + 1 / 2 ^ (8 * L)) ≤ 1 / 2 + 2 * r := by linarith only [e1, e2]
  have e4 := pow_le_pow_left₀ h0 e3 128
  have e5 : ((128 : Nat) : ℚ) ^ 2 * (2 / p) ≤ 32768 * (1 / 2 ^ 200) := by
    have : (1 : ℚ) / p ≤ 1 / 2 ^ 200 := by
      rw [← hb]
      exact one_div_le_one_div_of_le (by positivity) hpq
    have e : ((128 : Nat) : ℚ) ^ 2 * (2 / p) = 32768 * (1 / p) := by push_cast; ring
    rw [e]
    exact mul_le_mul_of_nonneg_left this (by norm_num)
  exact hx.trans (tail_aux2 (by rw [hr, ha]) e4 e5)

theorem named_num {c : Curve} {q : Nat} {gx gy : Int} (h : Named c q gx gy) :
    2 ^ 100 * q ≤ (2 ^ 100 + 1) * c.order ∧ c.order ≤ 2 * q ∧ 2 ^ 200 ≤ q ∧
      BN.bitLength (q : Int) ≤ 4096 := by
  cases h <;> decide +kernel

open scoped Classical in
/-- **C126** for the curves P-224, P-256 and P-384: with a random hash function, hashing any string
to the curve takes at most 128 rounds but for probability `2^-127`. -/
theorem C126_hash_named {c : Curve} {q : Nat} {gx gy : Int} (h : Named c q gx gy)
    {sqrt : BigNum → BigNum → Res BigNum} (hs : SqrtOk sqrt q) (B : Bytes → Bytes) (H : Hashes)
    (m : Bytes) (D : Finset Bytes) (hm : m ∈ D) (hD : ∀ v < q, BN.natToBytes v ∈ D)
    (B₁ : Bytes → Blocks (Ctx.iterCount 256 c.p) 32) (B₂ : Bytes → Blocks (Ctx.iterCount 384 c.p) 48)
    (B₃ : Bytes → Blocks (Ctx.iterCount 512 c.p) 64) :
    prob (fun f : D → Blocks (Ctx.iterCount 256 c.p) 32 =>
      c.hashSha256 { H with sha256 := blockHash B (graft B₁ D f) } sqrt 128 m = none) ≤ 1 / 2 ^ 127 ∧
    prob (fun f : D → Blocks (Ctx.iterCount 384 c.p) 48 =>
      c.hashSha384 { H with sha384 := blockHash B (graft B₂ D f) } sqrt 128 m = none) ≤ 1 / 2 ^ 127 ∧
    prob (fun f : D → Blocks (Ctx.iterCount 512 c.p) 64 =>
      c.hashSha512 { H with sha512 := blockHash B (graft B₃ D f) } sqrt 128 m = none) ≤ 1 / 2 ^ 127 := by
  obtain ⟨hp, hq, -, hN, -⟩ := C111_prime_order h
  obtain ⟨n1, n2, n4, n5⟩ := named_num h
  have hpr := h.certified.proper
  have hbits : BN.bitLength c.p ≤ 4096 := by rw [hp]; exact n5
  have h0 : ∀ L : Nat, (0 : ℚ) ≤ 1 - ((c.order : ℚ) - 4) / (2 * q) + 1 / 2 ^ (8 * L) := by
    intro L
    have hq0 : (0 : ℚ) < q := by exact_mod_cast hq.pos
    have : ((c.order : ℚ) - 4) / (2 * q) ≤ 1 := by
      rw [div_le_one (by positivity)]
      have : (c.order : ℚ) ≤ 2 * q := by exact_mod_cast n2
      linarith
    have : (0 : ℚ) ≤ 1 / 2 ^ (8 * L) := by positivity
    linarith
  refine ⟨?_, ?_, ?_⟩
  · have := C126_hash hpr hbits hs 32 (by simp) B B₁ m D hm hD 128
    rw [hN] at this
    exact tail_num n1 n4 (L := 32) (by norm_num) this (h0 32)
  · have := C126_hash hpr hbits hs 48 (by simp) B B₂ m D hm hD 128
    rw [hN] at this
    exact tail_num n1 n4 (L := 48) (by norm_num) this (h0 48)
  · have := C126_hash hpr hbits hs 64 (by simp) B B₃ m D hm hD 128
    rw [hN] at this
    exact tail_num n1 n4 (L := 64) (by norm_num) this (h0 64)

/-! ### The PRF -/

theorem prob_num_last {b K : Nat} (hK : K = 512) (hb : b ≤ K) (max : Nat) (S : Digest → Prop)
    [DecidablePred S] (hS : ∀ d, S d → max ≤ num d % 2 ^ b) (hmax : max ≤ 2 ^ b) :
    prob S ≤ 1 - max / 2 ^ b := by
  have hc := card_filter_le_of_inj S (range (2 ^ (K - b)) ×ˢ Ico max (2 ^ b))
    (fun d => (num d / 2 ^ b, num d % 2 ^ b)) (by
      intro d hd
      rw [mem_product, mem_range, mem_Ico]
      refine ⟨?_, hS d hd, Nat.mod_lt _ (by positivity)⟩
      rw [Nat.div_lt_iff_lt_mul (by positivity), ← pow_add, Nat.sub_add_cancel hb]
      exact num_lt d hK) (by
      intro d d' _ _ e
      apply num_inj
      rw [← Nat.div_add_mod (num d) (2 ^ b), ← Nat.div_add_mod (num d') (2 ^ b)]
      rw [(Prod.mk.inj e).1, (Prod.mk.inj e).2])
  unfold prob
  rw [card_digest hK, div_le_iff₀ (by positivity)]
  rw [card_product, card_range, Nat.card_Ico] at hc
  have hc' : ((univ.filter S).card : ℚ) ≤ 2 ^ (K - b) * (2 ^ b - max) := by
    have : (((2 ^ (K - b) * (2 ^ b - max) : Nat)) : ℚ) = 2 ^ (K - b) * (2 ^ b - max) := by
      push_cast [Nat.cast_sub hmax]
      ring
    rw [← this]
    exact_mod_cast hc
  refine hc'.trans_eq ?_
  push_cast
  rw [show (2 : ℚ) ^ K = 2 ^ (K - b) * 2 ^ b by rw [← pow_add, Nat.sub_add_cancel hb]]
  field_simp

theorem prob_num_eq {K : Nat} (hK : K = 512) (z : Nat) (S : Digest → Prop) [DecidablePred S]
    (hS : ∀ d, S d → num d = z) : prob S ≤ 1 / 2 ^ K := by
  unfold prob
  rw [card_digest hK]
  have := card_filter_le_of_inj S {z} num (fun d hd => mem_singleton.2 (hS d hd))
    (fun d d' _ _ e => num_inj e)
  rw [card_singleton] at this
  have h2 : ((univ.filter S).card : ℚ) ≤ 1 := by exact_mod_cast this
  push_cast
  gcongr

/-- The digests with HMAC under the key `key` given by `o`. -/
def withHmac (H : Hashes) (key : Bytes) (o : Bytes → Digest) : Hashes :=
  { H with hmacSha512 := fun k d => if k = key then List.ofFn (o d) else H.hmacSha512 k d }

/-- What the PRF goes on with. -/
def nextPrf (max : Nat) (y : Digest) : Option Bytes :=
  if num y % 2 ^ BN.bitLength (max : Int) < max then none else some (BN.natToBytes (num y))

theorem last_num (d : Digest) (b : Nat) :
    BN.getLastNBits (num d : Int) b = ((num d % 2 ^ b : Nat) : Int) := by
  unfold BN.getLastNBits
  rw [Int.natAbs_natCast]
  rcases Nat.eq_zero_or_pos (num d) with h | h
  · rw [h]; simp
  · rw [Int.sign_eq_one_of_pos (by exact_mod_cast h), one_mul]

theorem prf_running {H : Hashes} {key : Bytes} {o : Bytes → Digest} {max : Nat}
    (hk : 80 ≤ key.length * 8) (hb : BN.bitLength (max : Int) ≤ 512) : ∀ (k : Nat) (data : Bytes),
    Ctx.prf (withHmac H key o) k key data max = none → Running o (nextPrf max) k data
  | 0, _, _ => trivial
  | k + 1, data, hn => by
    rw [Ctx.prf, if_neg (by omega), if_neg (by omega)] at hn
    have e : (withHmac H key o).hmacSha512 key data = List.ofFn (o data) := by simp [withHmac]
    simp only [e, ← num_cast, last_num, Int.toNat_natCast] at hn
    simp only [Running, nextPrf]
    by_cases hlt : num (o data) % 2 ^ BN.bitLength (max : Int) < max
    · rw [if_pos (by exact_mod_cast hlt)] at hn
      cases hn
    · rw [if_neg (by exact_mod_cast hlt)] at hn
      rw [if_neg hlt]
      exact prf_running hk hb k _ hn

open scoped Classical in
/-- **C126**, `PRF`: when HMAC under the key is a random function, the PRF has not returned after `k`
calls of itself with probability at most `(1 - max / 2^b)^k + k^2 / 2^512`, where `b` is the bit length
of `max`. -/
theorem C126_prf (H : Hashes) (key data : Bytes) (hk : 10 ≤ key.length) (max : Nat)
    (hb : BN.bitLength (max : Int) ≤ 512) (B : Bytes → Digest) (D : Finset Bytes) (hd : data ∈ D)
    (hD : ∀ v < 2 ^ 512, BN.natToBytes v ∈ D) (k : Nat) :
    prob (fun f : D → Digest => Ctx.prf (withHmac H key (graft B D f)) k key data max = none) ≤
      (1 - max / 2 ^ BN.bitLength (max : Int)) ^ k + k ^ 2 * (1 / 2 ^ 512) := by
  obtain ⟨K, hK⟩ : ∃ K, K = 512 := ⟨_, rfl⟩
  rw [← hK] at hD hb ⊢
  have hmax : max < 2 ^ BN.bitLength (max : Int) := bitLength_lt max
  have hmq : (max : ℚ) / 2 ^ BN.bitLength (max : Int) ≤ 1 := by
    rw [div_le_one (by positivity)]
    exact_mod_cast hmax.le
  have h1 : prob (fun y => nextPrf max y ≠ none) ≤ 1 - max / 2 ^ BN.bitLength (max : Int) := by
    apply prob_num_last hK hb max _ _ hmax.le
    intro d hd
    by_contra hlt
    exact hd (if_pos (not_le.1 hlt))
  have h2 : ∀ z, prob (fun y => nextPrf max y = some z) ≤ 1 / 2 ^ K := by
    intro z
    apply prob_num_eq hK (BN.ofBytes z).toNat
    intro d hd
    unfold nextPrf at hd
    split at hd
    · cases hd
    · cases hd
      rw [BN.ofBytes_natToBytes, Int.toNat_natCast]
  have := chain_bound (nextPrf max) (by linarith)
    (by linarith [show (0 : ℚ) ≤ max / 2 ^ BN.bitLength (max : Int) by positivity])
    (by positivity) h1 h2 k D ∅ B data hd (by
      intro y z hz
      left
      unfold nextPrf at hz
      split at hz
      · cases hz
      · cases hz
        exact hD _ (num_lt y hK)) (fun f : D → Digest =>
      Ctx.prf (withHmac H key (graft B D f)) k key data max = none)
    (fun f hf => prf_running (by omega) (by omega) k data hf)
  refine this.trans_eq ?_
  rw [card_empty]
  push_cast
  ring

/-- For a positive `max` a call of the PRF rejects with probability at most one half. -/
theorem C126_prf_half {max : Nat} (h : 0 < max) :
    (1 : ℚ) - max / 2 ^ BN.bitLength (max : Int) ≤ 1 / 2 := by
  have : (2 : ℚ) ^ BN.bitLength (max : Int) ≤ 2 * max := by
    have h2 : 2 ^ BN.bitLength (max : Int) ≤ 2 * max := by
      unfold BN.bitLength
      rw [Int.natAbs_natCast]
      have hs : 0 < Nat.size max := Nat.size_pos.2 h
      have := Nat.lt_size.1 (show Nat.size max - 1 < Nat.size max by omega)
      calc 2 ^ Nat.size max = 2 * 2 ^ (Nat.size max - 1) := by rw [← pow_succ']; congr 1; omega
        _ ≤ 2 * max := by omega
    exact_mod_cast h2
  have : (1 : ℚ) / 2 ≤ max / 2 ^ BN.bitLength (max : Int) := by
    rw [div_le_div_iff₀ (by norm_num) (by positivity)]
    linarith
  linarith

/-- **C126**: for a `max` of zero or less the PRF never returns, whatever the hash function is. -/
theorem C126_prf_empty_fails (H : Hashes) (key : Bytes) (hk : 10 ≤ key.length) (max : Int) (h : max ≤ 0)
    (hb : BN.bitLength max ≤ 512) : ∀ (k : Nat) (data : Bytes), Ctx.prf H k key data max = none
  | 0, _ => rfl
  | k + 1, data => by
    rw [Ctx.prf, if_neg (by omega), if_neg (by omega)]
    have : ¬ BN.getLastNBits (BN.ofBytes (H.hmacSha512 key data)) (BN.bitLength max) < max := by
      have : 0 ≤ BN.getLastNBits (BN.ofBytes (H.hmacSha512 key data)) (BN.bitLength max) := by
        unfold BN.getLastNBits
        have := Int.sign_nonneg_iff.2 (BN.ofBytes_nonneg (H.hmacSha512 key data))
        positivity
      omega
    simp only [this, if_false]
    exact C126_prf_empty_fails H key hk max h hb k _

/-! ### Numbers coprime to a modulus, and a second prime -/

theorem prob_all {k n : Nat} (S : Fin n → Prop) [DecidablePred S] :
    prob (fun d : Fin k → Fin n => ∀ i, S (d i)) = (((univ.filter S).card : ℚ) / n) ^ k := by
  have hc : (univ.filter fun d : Fin k → Fin n => ∀ i, S (d i)).card = (univ.filter S).card ^ k := by
    have : (univ.filter fun d : Fin k → Fin n => ∀ i, S (d i)) = Fintype.piFinset fun _ => univ.filter S := by
      ext d
      simp
    rw [this, Fintype.card_piFinset]
    simp
  unfold prob
  rw [hc]
  simp [div_pow]

theorem relPrime_none {n : Nat} (hn : 0 < n) : ∀ ws : List Nat,
    Ctx.relPrimeLessThan ws n = none ↔ ∀ w ∈ ws, ¬ Nat.Coprime (w % n) n
  | [] => by simp [Ctx.relPrimeLessThan]
  | w :: ws => by
    have hr : Ctx.randLessThan w (n : Int) = .ok ((w % n : Nat) : Int) := by
      unfold Ctx.randLessThan
      rw [if_neg (by omega)]
      norm_cast
    have hg : BN.gcd ((w % n : Nat) : Int) n = (Nat.gcd (w % n) n : Int) := by
      simp only [BN.gcd]
      norm_cast
    simp only [Ctx.relPrimeLessThan, hr, hg, List.forall_mem_cons]
    have hpos : 0 < Nat.gcd (w % n) n := Nat.gcd_pos_of_pos_right _ hn
    by_cases h1 : Nat.gcd (w % n) n = 1
    · rw [if_neg (by rw [h1]; norm_num)]
      simp [Nat.Coprime, h1]
    · rw [if_pos (by omega), relPrime_none hn ws]
      simp [Nat.Coprime, h1]

open scoped Classical in
/-- **C126**, `RelativelyPrimeRandomLessThan(n)`: `k` uniform draws are all rejected with probability
`(1 - φ(n) / n)^k`. -/
theorem C126_rel_prime {n : Nat} (hn : 0 < n) (k : Nat) :
    prob (fun d : Fin k → Fin n => Ctx.relPrimeLessThan (List.ofFn fun i => (d i).val) n = none) =
      (1 - (Nat.totient n : ℚ) / n) ^ k := by
  have e : ∀ d : Fin k → Fin n,
      Ctx.relPrimeLessThan (List.ofFn fun i => (d i).val) n = none ↔ ∀ i, ¬ Nat.Coprime (d i).val n := by
    intro d
    rw [relPrime_none hn]
    simp [List.mem_ofFn]
  rw [prob_congr e, prob_all fun v : Fin n => ¬ Nat.Coprime v.val n]
  congr 1
  have hφ : (univ.filter fun v : Fin n => Nat.Coprime v.val n).card = Nat.totient n := by
    rw [Nat.totient_eq_card_coprime]
    apply card_bij (fun v _ => v.val)
    · intro v hv
      rw [mem_filter, mem_range]
      exact ⟨v.2, Nat.coprime_comm.1 (mem_filter.1 hv).2⟩
    · intro a _ b _ e
      exact Fin.ext e
    · intro b hb
      rw [mem_filter, mem_range] at hb
      exact ⟨⟨b, hb.1⟩, mem_filter.2 ⟨mem_univ _, Nat.coprime_comm.1 hb.2⟩, rfl⟩
  have hs := card_filter_add_card_filter_not (s := (univ : Finset (Fin n))) fun v : Fin n => Nat.Coprime v.val n
  rw [hφ, card_univ, Fintype.card_fin] at hs
  have hq : (Nat.totient n : ℚ) + (univ.filter fun v : Fin n => ¬ Nat.Coprime v.val n).card = n := by
    exact_mod_cast hs
  have hn0 : (n : ℚ) ≠ 0 := by exact_mod_cast hn.ne'
  rw [div_eq_iff hn0, sub_mul, one_mul, div_mul_cancel₀ _ hn0]
  linarith

theorem drawOther_none {gen : Nat → Res Int} {p : Int} : ∀ (k i : Nat) (q : Nat → Int),
    (∀ j, i ≤ j → j < i + k → gen j = .ok (q j)) →
    (drawOther gen p k i = none ↔ ∀ j, i ≤ j → j < i + k → q j = p)
  | 0, i, q, _ => by
    refine ⟨fun _ j h1 h2 => absurd h2 (by omega), fun _ => rfl⟩
  | k + 1, i, q, hg => by
    have ih := drawOther_none (gen := gen) (p := p) k (i + 1) q fun j h1 h2 => hg j (by omega) (by omega)
    simp only [drawOther, hg i le_rfl (by omega)]
    by_cases h : p = q i
    · rw [if_pos h, ih]
      constructor
      · intro hj j h1 h2
        rcases Nat.eq_or_lt_of_le h1 with rfl | h3
        · exact h.symm
        · exact hj j (by omega) (by omega)
      · intro hj j h1 h2
        exact hj j (by omega) (by omega)
    · rw [if_neg h]
      constructor
      · intro e; cases e
      · intro hj
        exact absurd (hj i le_rfl (by omega)).symm h

open scoped Classical in
/-- **C126**, `GeneratePaillierKeyPair`: when `GenerateSafePrime` draws one of `m` primes, each with
the same probability, the second prime has not been found after `k` draws with probability
`(1/m)^k`. -/
theorem C126_keygen {m : Nat} (ps : Fin m → Int) (hps : Function.Injective ps) (hm : 0 < m)
    (len s : Int) (hl : 2 ≤ len) (hs : 0 < s) (k : Nat) :
    prob (fun d : Fin (k + 1) → Fin m => generatePaillierKeyPair
      (fun _ i => if h : i < k + 1 then .ok (ps (d ⟨i, h⟩)) else .crash) k len s = none) = (1 / m) ^ k := by
  have e : ∀ d : Fin (k + 1) → Fin m, generatePaillierKeyPair
      (fun _ i => if h : i < k + 1 then .ok (ps (d ⟨i, h⟩)) else .crash) k len s = none ↔
      ∀ i, d i = d 0 := by
    intro d
    unfold generatePaillierKeyPair
    have hbits : ¬ (len.tdiv 2 ≤ 0 ∨ s ≤ 0) := by
      rw [Int.tdiv_eq_ediv_of_nonneg (by omega)]
      omega
    simp only [hbits, if_false, dif_pos (Nat.succ_pos k), Option.map_eq_none_iff]
    rw [drawOther_none k 1 (fun j => if h : j < k + 1 then ps (d ⟨j, h⟩) else 0) (by
      intro j h1 h2
      rw [dif_pos (by omega), dif_pos (by omega)])]
    constructor
    · intro hj i
      rcases Nat.eq_zero_or_pos i.val with h | h
      · congr 1
        exact Fin.ext h
      · have := hj i.val (by omega) (by omega)
        rw [dif_pos i.2] at this
        exact hps this
    · intro hi j h1 h2
      rw [dif_pos (by omega), hi]
      rfl
  rw [prob_congr e]
  have hc : (univ.filter fun d : Fin (k + 1) → Fin m => ∀ i, d i = d 0).card = m := by
    suffices hb : (univ : Finset (Fin m)).card =
        (univ.filter fun d : Fin (k + 1) → Fin m => ∀ i, d i = d 0).card by
      rw [← hb, card_univ, Fintype.card_fin]
    apply card_bij (fun (v : Fin m) _ => fun _ : Fin (k + 1) => v)
    · intro v _
      simp
    · intro a _ b _ hab
      exact congrFun hab 0
    · intro d hd
      exact ⟨d 0, mem_univ _, funext fun i => ((mem_filter.1 hd).2 i).symm⟩
  unfold prob
  rw [hc]
  simp only [Fintype.card_fun, Fintype.card_fin]
  have : (m : ℚ) ≠ 0 := by exact_mod_cast hm.ne'
  push_cast
  rw [pow_succ, div_pow, one_pow]
  field_simp

/-! ### The hypotheses can be met -/

open scoped Classical in
/-- P-256 with the power (q + 1) / 4 as the square root. -/
theorem C126_hash_reached (m : Bytes) : ∃ D : Finset Bytes, m ∈ D ∧
    prob (fun f : D → Blocks (Ctx.iterCount 256 p256.p) 32 =>
      p256.hashSha256 { twoHashes with sha256 := blockHash id (graft (fun _ _ _ => 0) D f) } (powSqrt 256) 128 m = none) ≤ 1 / 2 ^ 127 :=
  ⟨insert m ((range q256).image BN.natToBytes), mem_insert_self _ _,
    (C126_hash_named .p256 q256_sqrt id twoHashes m _ (mem_insert_self _ _)
      (fun _ hv => mem_insert_of_mem (mem_image_of_mem _ (mem_range.2 hv)))
      (fun _ _ _ => 0) (fun _ _ _ => 0) (fun _ _ _ => 0)).1⟩

open scoped Classical in
/-- A PRF into the numbers below 1000 needs more than `k` calls with probability at most
`2^-k + k^2 / 2^512`. -/
theorem C126_prf_reached (H : Hashes) (data : Bytes) (k : Nat) : ∃ D : Finset Bytes, data ∈ D ∧
    prob (fun f : D → Digest => Ctx.prf (withHmac H (List.replicate 16 7) (graft (fun _ _ => 0) D f)) k
      (List.replicate 16 7) data (1000 : Nat) = none) ≤ (1 / 2) ^ k + k ^ 2 * (1 / 2 ^ 512) := by
  refine ⟨insert data ((range (2 ^ 512)).image BN.natToBytes), mem_insert_self _ _, ?_⟩
  refine (C126_prf H _ data (by simp) 1000 (by decide) _ _ (mem_insert_self _ _)
    (fun _ hv => mem_insert_of_mem (mem_image_of_mem _ (mem_range.2 hv))) k).trans ?_
  have h0 : (0 : ℚ) ≤ 1 - (1000 : Nat) / 2 ^ BN.bitLength ((1000 : Nat) : Int) := by
    rw [show BN.bitLength ((1000 : Nat) : Int) = 10 by decide]
    norm_num
  exact add_le_add_left (pow_le_pow_left₀ h0 (C126_prf_half (by norm_num)) k) _

/-- With the modulus 15 ten draws are all rejected with probability `(7/15)^10`. -/
example : (1 - (Nat.totient 15 : ℚ) / (15 : Nat)) ^ 10 = (7 / 15) ^ 10 := by
  rw [show Nat.totient 15 = 8 by decide]
  norm_num

/-- With one safe prime of the length the loop never ends. -/
example (k : Nat) : generatePaillierKeyPair (fun _ _ => .ok 7) k 6 1 = none := by
  unfold generatePaillierKeyPair
  simp only [show ¬ ((6 : Int).tdiv 2 ≤ 0 ∨ (1 : Int) ≤ 0) by decide, if_false, Option.map_eq_none_iff]
  exact (drawOther_none k 1 (fun _ => 7) fun _ _ _ => rfl).2 fun _ _ _ => rfl

end PJC.Loops
