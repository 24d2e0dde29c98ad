import Verif.Model.PyPrime
import Verif.Props.PyBigNum
import Mathlib.Analysis.SpecialFunctions.Log.Basic
import Mathlib.Tactic.NormNum.Prime
/-
C119: what the predicates of Python's `BigNum` answer, and what its hash is good for.
-/
namespace PJC.Py.Bn
open PJC

/-- The number is prime. -/
def Prime (v : Int) : Prop := 0 ≤ v ∧ v.natAbs.Prime

/-- The number is a safe prime other than 2 (which is none): it and (p - 1) / 2 are prime. -/
def SafePrime (v : Int) : Prop := Prime v ∧ ∃ q, Prime q ∧ v = 2 * q + 1

/-- What `BN_is_prime_ex` promises, `ω` its random choices: a prime passes always, another number
passes `k` rounds (`k` at least one) with probability at most `4⁻ᵏ`; the result is 0 or 1. -/
structure TestOk {Ω : Type} [Fintype Ω] (test : Ω → Int → Int → Int) : Prop where
  result : ∀ ω v k, test ω v k = 0 ∨ test ω v k = 1
  prime : ∀ ω v k, Prime v → test ω v k = 1
  composite : ∀ v k, ¬ Prime v → 1 ≤ k →
    (Nat.card {ω // test ω v k = 1} : ℝ) ≤ (1 / 4) ^ k.toNat * Fintype.card Ω

/-- The class attributes `_ZERO`, `_ONE`, `_TWO` are unused or have their values (they do if no
program uses `<<=` or `>>=` on them, C116). -/
def Constants (h : Heap) : Prop :=
  (∀ r, h.zero = some r → r < h.objs.length ∧ h.val r = 0) ∧
  (∀ r, h.one = some r → r < h.objs.length ∧ h.val r = 1) ∧
  (∀ r, h.two = some r → r < h.objs.length ∧ h.val r = 2)

/-! ### Rounds -/

/-- **C119, rounds**.  For an error probability `ε` the number of rounds is the least integer `k`
with `4⁻ᵏ ≤ ε`; zero and negative numbers are a ValueError. -/
theorem C119_rounds (ε : ℝ) :
    (ε ≤ 0 → rounds ε = none) ∧
    (0 < ε → ∃ k, rounds ε = some k ∧ ∀ j : Int, (4 : ℝ) ^ (-j) ≤ ε ↔ k ≤ j) := by
  refine ⟨fun h => by rw [rounds, if_pos h], fun h => ⟨_, by rw [rounds, if_neg (not_le.2 h)], ?_⟩⟩
  intro j
  have h4 : (0 : ℝ) < Real.log 4 := Real.log_pos (by norm_num)
  rw [Int.ceil_le, div_le_iff₀ h4, ← Real.log_le_log_iff (by positivity) h, Real.log_zpow]
  push_cast
  constructor <;> intro h <;> linarith

theorem rounds_default : rounds 1e-6 = some 10 := by
  obtain ⟨k, h1, h2⟩ := (C119_rounds 1e-6).2 (by norm_num)
  have h3 : k ≤ 10 := (h2 10).1 (by norm_num [zpow_neg])
  have h4 : ¬ k ≤ 9 := fun h => absurd ((h2 9).2 h) (by norm_num [zpow_neg])
  rw [h1]
  congr 1
  omega

/-- The default of 1e-6 means ten rounds. -/
example : rounds 1e-6 = some 10 := rounds_default

/-! ### Primes -/

theorem isPrime_eq {test : Int → Int → Int} {ε : ℝ} {k : Int} (hk : rounds ε = some k) (h : Heap)
    (r : Nat) : isPrime test ε h r = .ok (test (h.val r) k != 0) := by
  rw [isPrime, hk]

/-- The chance that a number that is not prime passes. -/
theorem pass_le {Ω : Type} [Fintype Ω] {test : Ω → Int → Int → Int} (ht : TestOk test) {ε : ℝ}
    (hε : 0 < ε) {k : Int} (hk : rounds ε = some k) {v : Int} (hv : ¬ Prime v) :
    (Nat.card {ω // test ω v k ≠ 0} : ℝ) ≤ ε * Fintype.card Ω := by
  obtain ⟨k', h1, h2⟩ := (C119_rounds ε).2 hε
  rw [hk] at h1
  cases h1
  have e : ∀ ω, test ω v k ≠ 0 ↔ test ω v k = 1 := by
    intro ω
    rcases ht.result ω v k with h | h <;> simp [h]
  simp only [e]
  have hcard : (0 : ℝ) ≤ Fintype.card Ω := by positivity
  by_cases h0 : 1 ≤ k
  · refine (ht.composite v k hv h0).trans (mul_le_mul_of_nonneg_right ?_ hcard)
    have := (h2 k).2 le_rfl
    obtain ⟨n, rfl⟩ := Int.eq_ofNat_of_zero_le (show 0 ≤ k by omega)
    rw [zpow_neg, zpow_natCast, ← inv_pow] at this
    simpa [one_div] using this
  · have h3 : (1 : ℝ) ≤ ε := by simpa using (h2 0).2 (by omega)
    have h4 : (Nat.card {ω // test ω v k = 1} : ℝ) ≤ Fintype.card Ω := by
      rw [← Nat.card_eq_fintype_card]
      exact_mod_cast Nat.card_le_card_of_injective _ Subtype.val_injective
    exact h4.trans (le_mul_of_one_le_left hcard h3)

/-- **C119, primes**.  `IsPrime(ε)` is true for a prime, and true for another number with
probability at most `ε`. -/
theorem C119_isPrime {Ω : Type} [Fintype Ω] {test : Ω → Int → Int → Int} (ht : TestOk test) {ε : ℝ}
    (hε : 0 < ε) (h : Heap) (r : Nat) :
    (Prime (h.val r) → ∀ ω, isPrime (test ω) ε h r = .ok true) ∧
    (¬ Prime (h.val r) →
      (∀ ω, ∃ b, isPrime (test ω) ε h r = .ok b) ∧
      (Nat.card {ω // isPrime (test ω) ε h r = .ok true} : ℝ) ≤ ε * Fintype.card Ω) := by
  obtain ⟨k, hk, -⟩ := (C119_rounds ε).2 hε
  refine ⟨fun hp ω => ?_, fun hp => ⟨fun ω => ⟨_, isPrime_eq hk h r⟩, ?_⟩⟩
  · rw [isPrime_eq hk, ht.prime ω _ k hp]
    rfl
  · refine le_trans (le_of_eq ?_) (pass_le ht hε hk hp)
    simp only [isPrime_eq hk, Except.ok.injEq, bne_iff_ne]

/-- **C119 fails when the library fails**: the result -1 of a test that could not be made is taken for
"prime", for every number. -/
theorem C119_error_fails (h : Heap) (r : Nat) :
    isPrime (fun _ _ => -1) 1e-6 h r = .ok true := by
  rw [isPrime_eq rounds_default]
  rfl

theorem getOne_spec {h : Heap} (hc : Constants h) :
    (getOne h).2.val (getOne h).1 = 1 ∧ (getOne h).1 < (getOne h).2.objs.length ∧
    (∀ r, r < h.objs.length → (getOne h).2.val r = h.val r ∧ r < (getOne h).2.objs.length) ∧
    (getOne h).2.zero = h.zero ∧ (getOne h).2.two = h.two := by
  unfold getOne
  cases hz : h.one with
  | some r => exact ⟨(hc.2.1 r hz).2, (hc.2.1 r hz).1, fun r hr => ⟨rfl, hr⟩, rfl, rfl⟩
  | none =>
    refine ⟨alloc_val h 1, ?_, fun r hr => ⟨alloc_val_old hr 1, ?_⟩, rfl, rfl⟩
    · show (h.alloc 1).1 < (h.alloc 1).2.objs.length
      rw [alloc_length]
      exact Nat.lt_succ_self _
    · show r < (h.alloc 1).2.objs.length
      rw [alloc_length]
      omega

theorem getTwo_spec {h : Heap} (hc : ∀ r, h.two = some r → r < h.objs.length ∧ h.val r = 2) :
    (getTwo h).2.val (getTwo h).1 = 2 ∧ (getTwo h).1 < (getTwo h).2.objs.length ∧
    (∀ r, r < h.objs.length → (getTwo h).2.val r = h.val r ∧ r < (getTwo h).2.objs.length) ∧
    (getTwo h).2.zero = h.zero := by
  unfold getTwo
  cases hz : h.two with
  | some r => exact ⟨(hc r hz).2, (hc r hz).1, fun r hr => ⟨rfl, hr⟩, rfl⟩
  | none =>
    refine ⟨alloc_val h 2, ?_, fun r hr => ⟨alloc_val_old hr 2, ?_⟩, rfl⟩
    · show (h.alloc 2).1 < (h.alloc 2).2.objs.length
      rw [alloc_length]
      exact Nat.lt_succ_self _
    · show r < (h.alloc 2).2.objs.length
      rw [alloc_length]
      omega

/-- After the first test: the second one is of (v - 1) / 2, or the division fails. -/
theorem isSafePrime_eq (junk : Int) {test test' : Int → Int → Int} {ε : ℝ} {k : Int}
    (hk : rounds ε = some k) {h : Heap} (hc : Constants h) {r : Nat} (hr : r < h.objs.length) :
    (test (h.val r) k = 0 → isSafePrime junk test test' ε h r = .ok false) ∧
    (test (h.val r) k ≠ 0 → ∀ q, h.val r = 2 * q + 1 →
      isSafePrime junk test test' ε h r = .ok (test' q k != 0)) ∧
    (test (h.val r) k ≠ 0 → (∀ q, h.val r ≠ 2 * q + 1) →
      isSafePrime junk test test' ε h r = .error .valueError) := by
  obtain ⟨o1, o2, o3, o4, o5⟩ := getOne_spec hc
  obtain ⟨r1, r2⟩ := o3 r hr
  obtain ⟨h2, d, hop, hf1, hf2, hf3, -⟩ :=
    (C116_operator junk (getOne h).2 bnSub r r2).1 (getOne h).1 o2 _ rfl
  have hold : ∀ x, x < (getOne h).2.objs.length → h2.val x = (getOne h).2.val x := by
    intro x hx
    have e : h2 = ((getOne h).2.alloc 0).2.write ((getOne h).2.alloc 0).1
        ((getOne h).2.val r - (getOne h).2.val (getOne h).1) := by
      have hargs : ((getOne h).2.alloc 0).2.args [.num r, .num (getOne h).1] =
          some [(getOne h).2.val r, (getOne h).2.val (getOne h).1] := by
        simp [Heap.args, alloc_val_old r2, alloc_val_old o2]
      simp only [operator, computeResult, computeInto, hargs, bnSub, Prod.mk.injEq] at hop
      exact hop.2.symm
    rw [e]
    exact ((val_eq (write_other _ (by simp only [Heap.alloc]; omega))).1).trans (alloc_val_old hx 0)
  have hattr : h2.zero = h.zero ∧ h2.two = h.two := by
    have e : h2 = ((getOne h).2.alloc 0).2.write ((getOne h).2.alloc 0).1
        ((getOne h).2.val r - (getOne h).2.val (getOne h).1) := by
      have hargs : ((getOne h).2.alloc 0).2.args [.num r, .num (getOne h).1] =
          some [(getOne h).2.val r, (getOne h).2.val (getOne h).1] := by
        simp [Heap.args, alloc_val_old r2, alloc_val_old o2]
      simp only [operator, computeResult, computeInto, hargs, bnSub, Prod.mk.injEq] at hop
      exact hop.2.symm
    rw [e]
    exact ⟨o4, o5⟩
  have hkeep : ∀ x, x < h.objs.length → x < h2.objs.length ∧ h2.val x = h.val x := by
    intro x hx
    obtain ⟨x1, x2⟩ := o3 x hx
    exact ⟨by omega, (hold x x2).trans x1⟩
  obtain ⟨t1, t2, t3, t4⟩ := getTwo_spec (h := h2) (by
    intro x hx
    rw [hattr.2] at hx
    obtain ⟨y1, y2⟩ := hc.2.2 x hx
    obtain ⟨y3, y4⟩ := hkeep x y1
    exact ⟨y3, y4.trans y2⟩)
  have hd : d < h2.objs.length := by omega
  obtain ⟨d1, d2⟩ := t3 d hd
  have hval : (getTwo h2).2.val d = h.val r - 1 := by rw [d1, hf3, r1, o1]
  obtain ⟨v1, v2, -, -⟩ := C116_division (getTwo h2).2 d d2 (by
    intro z hz
    rw [t4, hattr.1] at hz
    obtain ⟨y1, y2⟩ := hc.1 z hz
    obtain ⟨y3, y4⟩ := hkeep z y1
    obtain ⟨y5, y6⟩ := t3 z y3
    exact ⟨y6, y5.trans (y4.trans y2)⟩)
  refine ⟨fun h0 => ?_, fun h0 q hq => ?_, fun h0 hq => ?_⟩
  · simp only [isSafePrime, isPrime_eq hk, h0, bne_self_eq_false]
  · obtain ⟨h4, x, e1, e2, -⟩ := v1 (getTwo h2).1 t2 (by rw [t1]; norm_num) q (by
      rw [hval, t1]; omega)
    have h0' : (test (h.val r) k != 0) = true := by simpa using h0
    simp only [isSafePrime, isPrime_eq hk, h0', hop, e1, e2]
  · have e1 := v2 (getTwo h2).1 t2 (by rw [t1]; norm_num) (by
      rw [hval, t1]
      rintro ⟨q, hq'⟩
      exact hq q (by omega))
    have h0' : (test (h.val r) k != 0) = true := by simpa using h0
    cases hdiv : div (getTwo h2).2 d (.num (getTwo h2).1) with
    | mk o h4 =>
      rw [hdiv] at e1
      simp only at e1
      simp only [isSafePrime, isPrime_eq hk, h0', hop, hdiv, e1]

/-- **C119, safe primes**.  `IsSafePrime(ε)` is true for a safe prime; for every other number it is
true with probability at most `ε`. -/
theorem C119_isSafePrime (junk : Int) {Ω : Type} [Fintype Ω] {test : Ω → Int → Int → Int}
    (ht : TestOk test) {ε : ℝ} (hε : 0 < ε) {h : Heap} (hc : Constants h) {r : Nat}
    (hr : r < h.objs.length) :
    (SafePrime (h.val r) → ∀ ω ω', isSafePrime junk (test ω) (test ω') ε h r = .ok true) ∧
    (¬ SafePrime (h.val r) →
      (Nat.card {ω : Ω × Ω // isSafePrime junk (test ω.1) (test ω.2) ε h r = .ok true} : ℝ) ≤
        ε * Fintype.card (Ω × Ω)) := by
  obtain ⟨k, hk, -⟩ := (C119_rounds ε).2 hε
  constructor
  · rintro ⟨hp, q, hq, e⟩ ω ω'
    rw [(isSafePrime_eq junk hk hc hr).2.1 (by rw [ht.prime ω _ k hp]; norm_num) q e,
      ht.prime ω' _ k hq]
    rfl
  · intro hs
    have hcard : (Fintype.card (Ω × Ω) : ℝ) = Fintype.card Ω * Fintype.card Ω := by
      rw [Fintype.card_prod]
      push_cast
      rfl
    have hΩ : (0 : ℝ) ≤ Fintype.card Ω := by positivity
    by_cases hp : Prime (h.val r)
    · by_cases hodd : ∃ q, h.val r = 2 * q + 1
      · obtain ⟨q, hq⟩ := hodd
        have hnq : ¬ Prime q := fun hq' => hs ⟨hp, q, hq', hq⟩
        have e : ∀ ω : Ω × Ω, isSafePrime junk (test ω.1) (test ω.2) ε h r = .ok true ↔
            test ω.2 q k ≠ 0 := by
          intro ω
          rw [(isSafePrime_eq junk hk hc hr).2.1 (by rw [ht.prime ω.1 _ k hp]; norm_num) q hq]
          simp
        have := pass_le ht hε hk hnq
        have hle : (Nat.card {ω : Ω × Ω // isSafePrime junk (test ω.1) (test ω.2) ε h r = .ok true} : ℝ) ≤
            Fintype.card Ω * Nat.card {ω // test ω q k ≠ 0} := by
          have := Nat.card_le_card_of_injective
            (fun x : {ω : Ω × Ω // isSafePrime junk (test ω.1) (test ω.2) ε h r = .ok true} =>
              ((x.1.1, ⟨x.1.2, (e x.1).1 x.2⟩) : Ω × {ω // test ω q k ≠ 0})) (by
              rintro ⟨⟨a, b⟩, _⟩ ⟨⟨c, d⟩, _⟩ h
              simp only [Prod.mk.injEq, Subtype.mk.injEq] at h
              simp [h.1, h.2])
          rw [Nat.card_prod, Nat.card_eq_fintype_card (α := Ω)] at this
          exact_mod_cast this
        rw [hcard]
        nlinarith
      · have e : ∀ ω : Ω × Ω, ¬ isSafePrime junk (test ω.1) (test ω.2) ε h r = .ok true := by
          intro ω
          rw [(isSafePrime_eq junk hk hc hr).2.2 (by rw [ht.prime ω.1 _ k hp]; norm_num)
            (fun q hq => hodd ⟨q, hq⟩)]
          exact fun h => by cases h
        have : IsEmpty {ω : Ω × Ω // isSafePrime junk (test ω.1) (test ω.2) ε h r = .ok true} :=
          ⟨fun x => e x.1 x.2⟩
        rw [Nat.card_eq_zero.2 (Or.inl this), hcard]
        push_cast
        positivity
    · have e : ∀ ω : Ω × Ω, isSafePrime junk (test ω.1) (test ω.2) ε h r = .ok true →
          test ω.1 (h.val r) k ≠ 0 := by
        intro ω hω h0
        rw [(isSafePrime_eq junk hk hc hr).1 h0] at hω
        cases hω
      have := pass_le ht hε hk hp
      have hle : (Nat.card {ω : Ω × Ω // isSafePrime junk (test ω.1) (test ω.2) ε h r = .ok true} : ℝ) ≤
          Nat.card {ω // test ω (h.val r) k ≠ 0} * Fintype.card Ω := by
        have := Nat.card_le_card_of_injective
          (fun x : {ω : Ω × Ω // isSafePrime junk (test ω.1) (test ω.2) ε h r = .ok true} =>
            ((⟨x.1.1, e x.1 x.2⟩, x.1.2) : {ω // test ω (h.val r) k ≠ 0} × Ω)) (by
            rintro ⟨⟨a, b⟩, _⟩ ⟨⟨c, d⟩, _⟩ h
            simp only [Prod.mk.injEq, Subtype.mk.injEq] at h
            simp [h.1, h.2])
        rw [Nat.card_prod, Nat.card_eq_fintype_card (α := Ω)] at this
        exact_mod_cast this
      rw [hcard]
      nlinarith

/-- **C119 fails for 2**: `IsSafePrime` of the number 2 is no answer but a ValueError, because 1 cannot
be divided by 2. -/
theorem C119_two_fails (junk : Int) {Ω : Type} [Fintype Ω] {test : Ω → Int → Int → Int}
    (ht : TestOk test) {ε : ℝ} (hε : 0 < ε) {h : Heap} (hc : Constants h) {r : Nat}
    (hr : r < h.objs.length) (h2 : h.val r = 2) (ω ω' : Ω) :
    isSafePrime junk (test ω) (test ω') ε h r = .error .valueError := by
  obtain ⟨k, hk, -⟩ := (C119_rounds ε).2 hε
  refine (isSafePrime_eq junk hk hc hr).2.2 ?_ (fun q hq => by omega)
  rw [ht.prime ω _ k (by rw [h2]; exact ⟨by norm_num, by norm_num⟩)]
  norm_num

/-- An exact test keeps the promise. -/
example : TestOk (Ω := Unit) (fun _ v _ => by classical exact if Prime v then 1 else 0) where
  result := by
    intro _ v _
    by_cases h : Prime v <;> simp [h]
  prime := by
    intro _ v _ h
    simp [h]
  composite := by
    intro v k h _
    simp [h]

/-- The hypotheses hold for the heap with the numbers 23 (a safe prime) and 2. -/
example : Constants (run 0 {} [.fromLong 23, .fromLong 2]) ∧
    (run 0 {} [.fromLong 23, .fromLong 2]).val 0 = 23 ∧ SafePrime 23 ∧
    (run 0 {} [.fromLong 23, .fromLong 2]).val 1 = 2 := by
  refine ⟨⟨?_, ?_, ?_⟩, by decide, ⟨⟨by norm_num, by norm_num⟩, 11, ⟨by norm_num, by norm_num⟩, by norm_num⟩,
    by decide⟩ <;> intro r hr <;> cases hr

/-! ### Bits -/

/-- **C119, bits**.  For positions that fit a C `int`: `IsBitSet(n)` is bit `n` of the magnitude, no bit
at a negative position, and `BitLength` is the least number of bits that holds it. -/
theorem C119_bits (h : Heap) (r : Nat) :
    (∀ n : Nat, n < 2 ^ 31 → (isBitSet h r n = true ↔ |h.val r| / 2 ^ n % 2 = 1)) ∧
    (∀ n : Int, -2 ^ 31 ≤ n → n < 0 → isBitSet h r n = false) ∧
    (∀ k, bitLength h r ≤ k ↔ |h.val r| < 2 ^ k) := by
  refine ⟨fun n hn => ?_, fun n h0 h1 => ?_, fun k => ?_⟩
  · have e : cInt n = n := by
      rw [cInt, Int.emod_eq_of_lt (by omega) (by omega)]
      omega
    rw [isBitSet, e, if_neg (by omega), Int.toNat_natCast, Nat.testBit_eq_decide_div_mod_eq,
      decide_eq_true_eq, Int.abs_eq_natAbs]
    exact_mod_cast Iff.rfl
  · have e : cInt n = n := by
      rw [cInt, Int.emod_eq_of_lt (by omega) (by omega)]
      omega
    rw [isBitSet, e, if_pos h1]
  · rw [bitLength, Nat.size_le, Int.abs_eq_natAbs]
    exact_mod_cast Iff.rfl

/-- The number 6 has the bits 1 and 2 and no other below 8. -/
example : let h := run 0 {} [.fromLong 6]
    ((List.range 8).map fun n => isBitSet h 0 n) = [false, true, true, false, false, false, false, false] ∧
      bitLength h 0 = 3 := by decide +kernel

/-! ### Sets -/

/-- **C119, sets, what holds**.  An object that was added to a set is found in it as long as its flag
and the numbers are as they were; and what is found has a number equal to that of a member.  Missing:
that an equal object is found (`C119_set_equal_fails`), and that `Mutable()` does not matter
(`C119_set_mutable_fails`). -/
theorem C119_set_partial (hash : Nat × Bool → Int) (h h' : Heap) (s : PySet) (x : Nat) :
    (h'.immutable x = h.immutable x → h'.val x = h.val x →
      (∀ e ∈ s, h'.val e.2 = h.val e.2) → (s.add hash h x).contains hash h' x = true) ∧
    (∀ y, s.contains hash h y = true → ∃ e ∈ s, h.val e.2 = h.val y) := by
  constructor
  · intro hi hv hs
    have hh : hashOf hash h' x = hashOf hash h x := by rw [hashOf, hashOf, hi]
    unfold PySet.add
    split
    · rename_i hc
      unfold PySet.contains at hc ⊢
      rw [List.any_eq_true] at hc ⊢
      obtain ⟨e, he, h1⟩ := hc
      exact ⟨e, he, by rw [hh, hv, hs e he]; exact h1⟩
    · simp [PySet.contains, hh]
  · intro y hy
    unfold PySet.contains at hy
    rw [List.any_eq_true] at hy
    obtain ⟨e, he, h1⟩ := hy
    refine ⟨e, he, ?_⟩
    simp only [Bool.and_eq_true, Bool.or_eq_true, beq_iff_eq] at h1
    rcases h1.2 with h2 | h2
    · rw [h2]
    · exact h2

/-- **C119 fails for equal objects**: an object equal to a member of the set is not found in the set,
if its hash differs, which is so for any hash that tells the two addresses apart. -/
theorem C119_set_equal_fails (hash : Nat × Bool → Int) (hne : hash (0, true) ≠ hash (1, true)) :
    let h := run 0 {} [.fromLong 5, .fromLong 5]
    eq h 0 (.num 1) = .ok true ∧
      (PySet.add hash h [] 0).contains hash h 0 = true ∧
      (PySet.add hash h [] 0).contains hash h 1 = false := by
  intro h
  have h0 : h.immutable 0 = true ∧ h.immutable 1 = true ∧ h.val 0 = 5 ∧ h.val 1 = 5 := by decide
  refine ⟨by simp [eq, h0.2.2.1, h0.2.2.2], ?_, ?_⟩
  · simp [PySet.add, PySet.contains, hashOf]
  · simp [PySet.add, PySet.contains, hashOf, h0.1, h0.2.1, hne]

/-- **C119 fails for mutable objects**: after `x.Mutable()` the object `x` is not found in the set that
it is in. -/
theorem C119_set_mutable_fails (hash : Nat × Bool → Int) (hne : hash (0, true) ≠ hash (0, false)) :
    let h := run 0 {} [.fromLong 5]
    let h' := (mutable h 0).2
    (PySet.add hash h [] 0).contains hash h 0 = true ∧
      (PySet.add hash h [] 0).contains hash h' 0 = false := by
  intro h h'
  have h0 : h.immutable 0 = true ∧ h'.immutable 0 = false := by decide
  constructor
  · simp [PySet.add, PySet.contains, hashOf]
  · simp [PySet.add, PySet.contains, hashOf, h0.1, h0.2, hne]

/-- Such a hash exists. -/
example : ∃ hash : Nat × Bool → Int, hash (0, true) ≠ hash (1, true) ∧ hash (0, true) ≠ hash (0, false) :=
  ⟨fun x => 2 * x.1 + if x.2 then 1 else 0, by decide, by decide⟩

end PJC.Py.Bn
