import Mathlib.Tactic.Linarith
import Verif.Props.BigNum
import Verif.Props.Paillier
/-
Property C81: integer division, shifts, bit operations and comparisons of `BigNum`.
-/
namespace PJC.Props
open PJC

/-- **C81**, `Div`: succeeds exactly when the divisor is not zero and divides, and then returns
the quotient; otherwise the process aborts. -/
theorem C81_exact_division (a b : Int) :
    (∀ q, BN.div a b = .ok q ↔ b ≠ 0 ∧ a = q * b) ∧
    (BN.div a b = .crash ↔ b = 0 ∨ ¬ b ∣ a) := by
  have hdvd : a.tmod b = 0 ↔ b ∣ a := Int.dvd_iff_tmod_eq_zero.symm
  constructor
  · intro q
    unfold BN.div
    split
    · simp [*]
    · rename_i hb
      split
      · rename_i h
        simp only [reduceCtorEq, false_iff, not_and]
        rintro - rfl
        exact h (hdvd.2 (dvd_mul_left b q))
      · rename_i h
        push Not at h
        simp only [Res.ok.injEq]
        obtain ⟨c, rfl⟩ := hdvd.1 h
        rw [Int.mul_tdiv_cancel_left _ hb]
        constructor
        · rintro rfl
          exact ⟨hb, mul_comm _ _⟩
        · rintro ⟨-, e⟩
          rw [mul_comm] at e
          exact mul_right_cancel₀ hb e
  · unfold BN.div
    split
    · simp [*]
    · rename_i hb
      split
      · rename_i h
        simp only [true_iff]
        exact Or.inr fun hd => h (hdvd.2 hd)
      · rename_i h
        push Not at h
        simp only [reduceCtorEq, false_iff, not_or, not_not]
        exact ⟨hb, hdvd.1 h⟩

/-- **C81**, `DivAndTruncate`: the quotient rounded towards zero; a zero divisor aborts. -/
theorem C81_truncating_division (a b : Int) :
    (b = 0 → BN.divAndTruncate a b = .crash) ∧
    (b ≠ 0 → ∃ q r, BN.divAndTruncate a b = .ok q ∧ a = q * b + r ∧ r.natAbs < b.natAbs ∧
      (0 ≤ a → 0 ≤ r) ∧ (a ≤ 0 → r ≤ 0)) := by
  refine ⟨fun h => by simp [BN.divAndTruncate, h], fun hb => ⟨a.tdiv b, a.tmod b, ?_, ?_, ?_, ?_, ?_⟩⟩
  · simp [BN.divAndTruncate, hb]
  · rw [mul_comm]; exact (Int.mul_tdiv_add_tmod a b).symm
  · rw [Int.natAbs_tmod]
    exact Nat.mod_lt _ (Int.natAbs_pos.2 hb)
  · exact fun h => Int.tmod_nonneg _ h
  · intro h
    have := Int.tmod_nonneg (a := -a) b (by omega)
    rw [Int.neg_tmod] at this
    omega

/-- **C81**, shifts: a left shift multiplies by a power of two and is undone by the right shift;
a right shift of a nonnegative number is division rounded down; the low bits are what a right
shift drops; a negative amount aborts. -/
theorem C81_shifts (a : Int) (n : Nat) :
    (BN.lshift a n = .ok (a * 2 ^ n)) ∧
    (∃ b, BN.lshift a n = .ok b ∧ BN.rshift b n = .ok a) ∧
    (0 ≤ a → BN.rshift a n = .ok (a / 2 ^ n)) ∧
    (∃ hi, BN.rshift a n = .ok hi ∧ a = hi * 2 ^ n + BN.getLastNBits a n) ∧
    (0 ≤ a → BN.getLastNBits a n = a % 2 ^ n) ∧
    (∀ k : Int, k < 0 → BN.lshift a k = .crash ∧ BN.rshift a k = .crash) := by
  have h2 : (2 : Int) ^ n ≠ 0 := by positivity
  have hn : ¬ ((n : Int) < 0) := by omega
  have hcast : ∀ k : Nat, ((k % 2 ^ n : Nat) : Int) = (k : Int) % 2 ^ n := by intro k; push_cast; rfl
  refine ⟨by simp [BN.lshift, hn], ⟨a * 2 ^ n, by simp [BN.lshift, hn], ?_⟩, ?_, ⟨a.tdiv (2 ^ n), ?_, ?_⟩,
    ?_, ?_⟩
  · simp [BN.rshift, hn, Int.mul_tdiv_cancel _ h2]
  · intro h
    simp only [BN.rshift, hn, if_false, Int.toNat_natCast, Int.tdiv_eq_ediv_of_nonneg h]
  · simp only [BN.rshift, hn, if_false, Int.toNat_natCast]
  · have key : BN.getLastNBits a n = a.tmod (2 ^ n) := by
      unfold BN.getLastNBits
      rcases le_or_gt 0 a with h | h
      · obtain ⟨A, rfl⟩ := Int.eq_ofNat_of_zero_le h
        rw [Int.tmod_eq_emod_of_nonneg (by omega), Int.natAbs_natCast, hcast]
        rcases Nat.eq_zero_or_pos A with h0 | h0
        · subst h0; simp
        · rw [Int.sign_eq_one_of_pos (by omega), one_mul]
      · obtain ⟨A, hA⟩ := Int.eq_ofNat_of_zero_le (show 0 ≤ -a by omega)
        have : a = -(A : Int) := by omega
        subst this
        rw [Int.neg_tmod, Int.tmod_eq_emod_of_nonneg (by omega), Int.natAbs_neg, Int.natAbs_natCast,
          hcast, Int.sign_eq_neg_one_of_neg h, neg_one_mul]
    rw [key, mul_comm]
    exact (Int.mul_tdiv_add_tmod a _).symm
  · intro h
    obtain ⟨A, rfl⟩ := Int.eq_ofNat_of_zero_le h
    unfold BN.getLastNBits
    rw [Int.natAbs_natCast, hcast]
    rcases Nat.eq_zero_or_pos A with h0 | h0
    · subst h0; simp
    · rw [Int.sign_eq_one_of_pos (by omega), one_mul]
  · intro k hk
    simp [BN.lshift, BN.rshift, hk]

/-- **C81**, bits of nonnegative numbers: `IsBitSet` reads the binary expansion, `BitLength` is its
length. -/
theorem C81_bits (a : Int) (ha : 0 ≤ a) :
    (∀ n, BN.isBitSet a n = true ↔ a / 2 ^ n % 2 = 1) ∧
    (∀ k, BN.bitLength a ≤ k ↔ a < 2 ^ k) := by
  obtain ⟨A, rfl⟩ := Int.eq_ofNat_of_zero_le ha
  constructor
  · intro n
    unfold BN.isBitSet
    rw [Int.natAbs_natCast, Nat.testBit_eq_decide_div_mod_eq, decide_eq_true_eq]
    exact_mod_cast Iff.rfl
  · intro k
    unfold BN.bitLength
    rw [Int.natAbs_natCast, Nat.size_le]
    exact_mod_cast Iff.rfl

/-- **C81**, comparison and arithmetic: `CompareTo` decides the order of the integers; the ring
operations are exact (there is no overflow at any size). -/
theorem C81_compare_and_ring (a b : Int) :
    (BN.compareTo a b < 0 ↔ a < b) ∧ (BN.compareTo a b = 0 ↔ a = b) ∧
    (0 < BN.compareTo a b ↔ b < a) ∧
    BN.sub (BN.add a b) b = a ∧ BN.add a (BN.neg b) = BN.sub a b ∧
    (b ≠ 0 → BN.div (BN.mul a b) b = .ok a) ∧
    (BN.isZero a = true ↔ a = 0) ∧ (BN.isOne a = true ↔ a = 1) ∧
    (BN.isNonNegative a = true ↔ 0 ≤ a) := by
  refine ⟨?_, ?_, ?_, ?_, ?_, ?_, ?_, ?_, ?_⟩
  · unfold BN.compareTo; split_ifs <;> simp_all
  · unfold BN.compareTo; split_ifs <;> simp_all <;> omega
  · unfold BN.compareTo; split_ifs <;> simp_all <;> omega
  · unfold BN.sub BN.add; ring
  · unfold BN.sub BN.add BN.neg; ring
  · exact fun hb => ((C81_exact_division _ _).1 _).2 ⟨hb, rfl⟩
  · simp [BN.isZero]
  · simp [BN.isOne]
  · simp [BN.isNonNegative]

/-- **C81**, `ToIntValue`: fails exactly for magnitudes beyond 64 bits; on nonnegative numbers it
returns the number. -/
theorem C81_to_int_value (a : Int) (ha : 0 ≤ a) :
    (∀ n : Nat, BN.toIntValue a = .ok n ↔ a = n ∧ n < 2 ^ 64) ∧
    (BN.toIntValue a = .err .invalidArgument ↔ 2 ^ 64 ≤ a) := by
  obtain ⟨A, rfl⟩ := Int.eq_ofNat_of_zero_le ha
  unfold BN.toIntValue
  rw [Int.natAbs_natCast]
  constructor
  · intro n
    split
    · simp only [Res.ok.injEq]
      constructor
      · rintro rfl; exact ⟨rfl, by assumption⟩
      · rintro ⟨h, -⟩; exact_mod_cast h
    · simp only [reduceCtorEq, false_iff, not_and]
      rintro h
      have : A = n := by exact_mod_cast h
      omega
  · split
    · simp only [reduceCtorEq, false_iff]
      push Not
      exact_mod_cast (by assumption : A < 2 ^ 64)
    · simp only [true_iff]
      exact_mod_cast (not_lt.1 (by assumption : ¬ A < 2 ^ 64))

/-- ... and on negative numbers it drops the sign (the documentation does not say so). -/
theorem C81_to_int_value_negative_fails : BN.toIntValue (-5) = .ok 5 := by decide

/-- **C81**, `IsSafePrime` decides safe primality of every number except 2, for which it aborts
(it divides 1 by 2 exactly). -/
theorem C81_safe_prime (a : Nat) :
    (a ≠ 2 → ∃ b, BN.isSafePrime a = .ok b ∧ (b = true ↔ SafePrime a)) ∧
    (a = 2 → BN.isSafePrime a = .crash) := by
  constructor
  · intro h2
    by_cases hp : a.Prime
    · have hodd : a % 2 = 1 := hp.eq_two_or_odd.resolve_left h2
      have hip : BN.isPrime (a : Int) := ⟨by omega, by simpa using hp⟩
      have hdiv : BN.div ((a : Int) - 1) 2 = .ok ((a / 2 : Nat) : Int) :=
        ((C81_exact_division _ _).1 _).2 ⟨by decide, by omega⟩
      refine ⟨decide (BN.isPrime ((a / 2 : Nat) : Int)), ?_, ?_⟩
      · unfold BN.isSafePrime
        rw [if_pos hip, hdiv]
        rfl
      · rw [decide_eq_true_eq]
        constructor
        · intro h; exact ⟨hp, hodd, by rw [← Int.natAbs_natCast (a / 2)]; exact h.2⟩
        · intro h; exact ⟨by omega, by rw [Int.natAbs_natCast]; exact h.2.2⟩
    · refine ⟨false, ?_, ?_⟩
      · unfold BN.isSafePrime
        rw [if_neg]
        rintro ⟨-, h⟩
        exact hp (by simpa using h)
      · simp only [Bool.false_eq_true, false_iff]
        exact fun h => hp h.1
  · rintro rfl
    have : BN.isPrime 2 := ⟨by decide, Nat.prime_two⟩
    unfold BN.isSafePrime
    rw [if_pos (by exact_mod_cast this)]
    rfl

example : BN.div (-12) 4 = .ok (-3) ∧ BN.div 7 2 = .crash ∧ BN.divAndTruncate (-7) 2 = .ok (-3) ∧
    BN.rshift (-7) 1 = .ok (-3) ∧ BN.getLastNBits 13 2 = 1 ∧ BN.isBitSet 13 2 = true ∧
    BN.bitLength 13 = 4 ∧ BN.compareTo 3 5 = -1 := by decide

example : SafePrime 23 := ⟨by norm_num, rfl, by norm_num⟩

end PJC.Props
