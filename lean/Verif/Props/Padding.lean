import Verif.Model.Weierstrass
import Mathlib.Data.Nat.Size
import Mathlib.Tactic.Ring
import Mathlib.Tactic.NormNum
/-
C28, the floating-point arithmetic of `GetPointByPaddingX`: the bounds the model uses are the
ones that IEEE double arithmetic gives for `pow(2, k) - 1` and `i < pow(2, k)`.
-/
namespace PJC.Curve

/-! ### Specification -/

/-- A natural number rounded to the nearest IEEE double: 53 significant bits, ties to even.
(No overflow: it is used below 2^1024 only.) -/
def toDouble (i : Nat) : Nat :=
  let e := i.size - 53
  let q := i / 2 ^ e
  let r := i % 2 ^ e
  (if 2 ^ e < 2 * r ∨ (2 * r = 2 ^ e ∧ q % 2 = 1) then q + 1 else q) * 2 ^ e

example : toDouble 1000003 = 1000003 ∧ toDouble (2 ^ 53 + 1) = 2 ^ 53 ∧
    toDouble (2 ^ 53 + 3) = 2 ^ 53 + 4 ∧ toDouble (2 ^ 60 + 200) = 2 ^ 60 + 256 := by
  decide +kernel

/-! ### Theorems -/

theorem toDouble_small {i : Nat} (h : i < 2 ^ 53) : toDouble i = i := by
  have : i.size ≤ 53 := Nat.size_le.2 h
  simp [toDouble, Nat.sub_eq_zero_of_le this, Nat.mod_one]

theorem size_eq {i k : Nat} (h1 : 2 ^ k ≤ i) (h2 : i < 2 ^ (k + 1)) : i.size = k + 1 :=
  le_antisymm (Nat.size_le.2 h2) (Nat.lt_size.2 h1)

theorem toDouble_le {i j : Nat} (h : i < 2 ^ j) : toDouble i ≤ 2 ^ j := by
  have hs : i.size ≤ j := Nat.size_le.2 h
  by_cases h53 : i.size ≤ 53
  · have : i < 2 ^ 53 := lt_of_lt_of_le (Nat.lt_size_self i) (Nat.pow_le_pow_right (by norm_num) h53)
    rw [toDouble_small this]; exact h.le
  · obtain ⟨e, he⟩ : ∃ e, i.size = 53 + e := ⟨i.size - 53, by omega⟩
    have he' : i.size - 53 = e := by omega
    have hlt : i < 2 ^ 53 * 2 ^ e := by rw [← pow_add, ← he]; exact Nat.lt_size_self i
    have hq : i / 2 ^ e < 2 ^ 53 := Nat.div_lt_of_lt_mul (by rw [mul_comm]; exact hlt)
    have : toDouble i ≤ 2 ^ 53 * 2 ^ e := by
      simp only [toDouble, he']
      apply Nat.mul_le_mul_right
      split <;> omega
    refine this.trans ?_
    rw [← pow_add, ← he]
    exact Nat.pow_le_pow_right (by norm_num) hs

/-- **C28**: the loop of `GetPointByPaddingX` runs for exactly the numbers whose double is less
than `pow(2, k)`. -/
theorem C28_loop_bound (k : Nat) :
    (∀ i < padLimit k, toDouble i < 2 ^ k) ∧ 2 ^ k ≤ toDouble (padLimit k) := by
  by_cases hk : k ≤ 53
  · simp only [padLimit, if_pos hk]
    refine ⟨fun i hi => ?_, ?_⟩
    · rw [toDouble_small (lt_of_lt_of_le hi (Nat.pow_le_pow_right (by norm_num) hk))]
      exact hi
    · by_cases h : k = 53
      · subst h; decide +kernel
      · rw [toDouble_small (Nat.pow_lt_pow_right (by norm_num) (by omega))]
  · obtain ⟨e, rfl⟩ : ∃ e, k = 54 + e := ⟨k - 54, by omega⟩
    have hE : 54 + e - 54 = e := by omega
    simp only [padLimit, if_neg hk, hE]
    have hpos : 0 < 2 ^ e := Nat.two_pow_pos e
    have e1 : (2 : Nat) ^ (54 + e) = 18014398509481984 * 2 ^ e := by rw [pow_add]; norm_num
    have e2 : (2 : Nat) ^ (53 + e) = 9007199254740992 * 2 ^ e := by rw [pow_add]; norm_num
    have e3 : (2 : Nat) ^ (e + 1) = 2 * 2 ^ e := by rw [pow_succ, mul_comm]
    refine ⟨fun i hi => ?_, ?_⟩
    · by_cases hi2 : i < 2 ^ (53 + e)
      · refine lt_of_le_of_lt (toDouble_le hi2) ?_
        omega
      · have hs : i.size = 53 + e + 1 := size_eq (by omega) (by
          rw [show 53 + e + 1 = 54 + e by omega]; omega)
        have hs' : i.size - 53 = e + 1 := by omega
        simp only [toDouble, hs']
        have hq : i / 2 ^ (e + 1) < 2 ^ 53 := Nat.div_lt_of_lt_mul (by rw [e3]; omega)
        have hdm := Nat.div_add_mod i (2 ^ (e + 1))
        generalize i / 2 ^ (e + 1) = q at hq hdm ⊢
        generalize i % 2 ^ (e + 1) = r at hdm ⊢
        have key : ∀ q' : Nat, q' ≤ 2 ^ 53 - 1 → q' * 2 ^ (e + 1) < 2 ^ (54 + e) := by
          intro q' hq'
          have : q' * 2 ^ (e + 1) ≤ (2 ^ 53 - 1) * 2 ^ (e + 1) := Nat.mul_le_mul_right _ hq'
          refine lt_of_le_of_lt this ?_
          rw [e3, e1]
          norm_num
          omega
        apply key
        split
        · rename_i hr
          by_contra hc
          have hq2 : q = 9007199254740991 := by norm_num at hq hc; omega
          subst hq2
          rw [e3] at hdm hr
          omega
        · norm_num at hq ⊢; omega
    · have hs : (2 ^ (54 + e) - 2 ^ e).size = 53 + e + 1 := size_eq (by omega) (by
        rw [show 53 + e + 1 = 54 + e by omega]; omega)
      have hs' : (2 ^ (54 + e) - 2 ^ e).size - 53 = e + 1 := by omega
      simp only [toDouble, hs']
      have hsplit : 2 ^ (54 + e) - 2 ^ e = 2 ^ e + 9007199254740991 * 2 ^ (e + 1) := by
        rw [e3]; omega
      have hlt : 2 ^ e < 2 ^ (e + 1) := by omega
      rw [hsplit, Nat.add_mul_div_right _ _ (by omega), Nat.div_eq_of_lt hlt,
        Nat.add_mul_mod_self_right, Nat.mod_eq_of_lt hlt, if_pos (.inr ⟨by omega, by norm_num⟩)]
      omega

/-- **C28**: the mask of `GetPointByPaddingX` is the double `pow(2, k) - 1` as an unsigned 64-bit
integer, the conversion being undefined when it does not fit. -/
theorem C28_mask (k : Nat) :
    padMask k = if toDouble (2 ^ k - 1) < 2 ^ 64 then .ok (toDouble (2 ^ k - 1) : Int) else .ub := by
  by_cases hk : k ≤ 53
  · have hle : 2 ^ k ≤ 2 ^ 53 := Nat.pow_le_pow_right (by norm_num) hk
    have hp : 0 < 2 ^ k := Nat.two_pow_pos k
    rw [padMask, if_pos hk, toDouble_small (by omega), if_pos (by omega)]
    congr 1
    push_cast [Nat.cast_sub (Nat.one_le_two_pow : 1 ≤ 2 ^ k)]
    rfl
  · have key : toDouble (2 ^ k - 1) = 2 ^ k := by
      obtain ⟨e, rfl⟩ : ∃ e, k = 54 + e := ⟨k - 54, by omega⟩
      have hpos : 0 < 2 ^ e := Nat.two_pow_pos e
      have e1 : (2 : Nat) ^ (54 + e) = 18014398509481984 * 2 ^ e := by rw [pow_add]; norm_num
      have e2 : (2 : Nat) ^ (53 + e) = 9007199254740992 * 2 ^ e := by rw [pow_add]; norm_num
      have e3 : (2 : Nat) ^ (e + 1) = 2 * 2 ^ e := by rw [pow_succ, mul_comm]
      have hs : (2 ^ (54 + e) - 1).size = 53 + e + 1 := size_eq (by omega) (by
        rw [show 53 + e + 1 = 54 + e by omega]; omega)
      have hs' : (2 ^ (54 + e) - 1).size - 53 = e + 1 := by omega
      simp only [toDouble, hs']
      have hsplit : 2 ^ (54 + e) - 1 = (2 ^ (e + 1) - 1) + 9007199254740991 * 2 ^ (e + 1) := by
        rw [e3]; omega
      have hlt : 2 ^ (e + 1) - 1 < 2 ^ (e + 1) := by omega
      rw [hsplit, Nat.add_mul_div_right _ _ (by omega), Nat.div_eq_of_lt hlt,
        Nat.add_mul_mod_self_right, Nat.mod_eq_of_lt hlt, if_pos]
      · omega
      · by_cases h : e = 0
        · subst h; exact .inr ⟨by norm_num, by norm_num⟩
        · left
          have : 2 ≤ 2 ^ e := by
            calc 2 = 2 ^ 1 := rfl
              _ ≤ 2 ^ e := Nat.pow_le_pow_right (by norm_num) (by omega)
          omega
    rw [padMask, if_neg hk, key]
    by_cases h63 : k ≤ 63
    · rw [if_pos h63, if_pos (Nat.pow_lt_pow_right (by norm_num) (by omega))]
      push_cast; rfl
    · rw [if_neg h63, if_neg]
      exact not_lt.2 (Nat.pow_le_pow_right (by norm_num) (by omega))

-- 2^60 - 1 is not a double: the mask is one too large, and the loop stops 64 early
example : padMask 60 = .ok (2 ^ 60) ∧ padLimit 60 = 2 ^ 60 - 64 := by decide +kernel

end PJC.Curve
