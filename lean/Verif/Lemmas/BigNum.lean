import Mathlib.Tactic.Ring
import Mathlib.Tactic.Linarith
import Mathlib.Data.ZMod.Basic
import Mathlib.Data.Int.ModEq
import Verif.Model.BigNum
namespace PJC.BN

theorem xgcd_spec (a m : Int) : ∀ (fuel : Nat) (r0 r1 s0 s1 : Int), 0 < r0 → 0 ≤ r1 →
    r1.natAbs < fuel → r0 ≡ s0 * a [ZMOD m] → r1 ≡ s1 * a [ZMOD m] →
    (Int.gcd r0 r1 : Int) ≡ xgcd fuel r0 r1 s0 s1 * a [ZMOD m]
  | 0, _, _, _, _, _, _, h, _, _ => by omega
  | fuel + 1, r0, r1, s0, s1, p0, p1, hf, h0, h1 => by
    unfold xgcd
    split
    · rename_i hz
      subst hz
      simp only [Int.gcd_zero_right]
      rw [Int.natAbs_of_nonneg p0.le]
      exact h0
    · rename_i hz
      have hpos : 0 < r1 := by omega
      have hnn := Int.emod_nonneg r0 hz
      have hlt := Int.emod_lt_of_pos r0 hpos
      have ih := xgcd_spec a m fuel r1 (r0 % r1) s1 (s0 - r0 / r1 * s1) hpos hnn (by omega) h1 (by
        have e : r0 % r1 = r0 - r0 / r1 * r1 := by
          have := Int.emod_add_mul_ediv r0 r1
          linarith
        rw [e]
        have := h0.sub (h1.mul_left (r0 / r1))
        have e2 : (s0 - r0 / r1 * s1) * a = s0 * a - r0 / r1 * (s1 * a) := by ring
        rw [e2]
        exact this)
      have hg : Int.gcd r1 (r0 % r1) = Int.gcd r0 r1 := by
        rw [Int.gcd_comm, Int.gcd_emod, Int.gcd_comm]
      rwa [hg] at ih

theorem inv_spec {a m : Int} (hm : 0 < m) (h : Int.gcd a m = 1) :
    a * inv a m ≡ 1 [ZMOD m] ∧ 0 ≤ inv a m ∧ inv a m < m := by
  unfold inv
  refine ⟨?_, Int.emod_nonneg _ (by omega), Int.emod_lt_of_pos _ hm⟩
  have h1 := xgcd_spec a m ((a % m).natAbs + 1) m (a % m) 0 1 hm
    (Int.emod_nonneg _ (by omega)) (by omega)
    (by simpa using (Int.modEq_zero_iff_dvd.2 (dvd_refl m))) (by simpa using Int.mod_modEq a m)
  have hg : Int.gcd m (a % m) = 1 := by
    rw [Int.gcd_comm, Int.gcd_emod]; exact h
  rw [hg] at h1
  have h2 := (Int.mod_modEq (xgcd ((a % m).natAbs + 1) m (a % m) 0 1) m).mul_left a
  refine h2.trans ?_
  rw [mul_comm]
  exact_mod_cast h1.symm

theorem modInverse_ok {a m : Int} (hm : 0 < m) (h : Int.gcd a m = 1) :
    modInverse a m = .ok (inv a m) := by
  simp [modInverse, h, hm]

theorem modInverse_eq_ok {a m r : Int} (h : modInverse a m = .ok r) :
    0 < m ∧ Int.gcd a m = 1 ∧ a * r ≡ 1 [ZMOD m] ∧ 0 ≤ r ∧ r < m := by
  unfold modInverse at h
  split at h
  · rename_i hh
    cases h
    exact ⟨hh.1, hh.2, inv_spec hh.1 hh.2⟩
  · cases h

theorem digitsLE_val : ∀ (fuel n : Nat), n ≤ fuel →
    (digitsLE fuel n).foldr (fun b acc => acc * 256 + b.val) 0 = n
  | 0, n, h => by simp [digitsLE]; omega
  | fuel + 1, n, h => by
    unfold digitsLE
    split
    · simp_all
    · rw [List.foldr_cons, digitsLE_val fuel (n / 256) (by omega)]
      simp only [Fin.val_ofNat]
      omega

theorem ofBytes_natToBytes (n : Nat) : ofBytes (natToBytes n) = (n : Int) := by
  unfold ofBytes natToBytes
  rw [List.foldl_reverse, digitsLE_val n n (le_refl n)]

theorem digitsLE_last : ∀ (fuel n : Nat), n ≤ fuel → ∀ h : digitsLE fuel n ≠ [],
    (digitsLE fuel n).getLast h ≠ 0
  | 0, _, _, h => by simp [digitsLE] at h
  | fuel + 1, n, hn, h => by
    by_cases h0 : n = 0
    · simp [digitsLE, h0] at h
    · have e : digitsLE (fuel + 1) n
          = Fin.ofNat 256 (n % 256) :: digitsLE fuel (n / 256) := by
        rw [digitsLE, if_neg h0]
      by_cases h1 : digitsLE fuel (n / 256) = []
      · have : n / 256 = 0 := by
          have := digitsLE_val fuel (n / 256) (by omega)
          rw [h1] at this
          simpa using this.symm
        simp only [e, h1, List.getLast_singleton]
        intro hc
        have := congrArg Fin.val hc
        simp only [Fin.val_ofNat, Fin.val_zero] at this
        omega
      · simp only [e]
        rw [List.getLast_cons h1]
        exact digitsLE_last fuel (n / 256) (by omega) h1

theorem natToBytes_head (n : Nat) (h : natToBytes n ≠ []) : (natToBytes n).head h ≠ 0 := by
  unfold natToBytes at h ⊢
  rw [List.head_reverse]
  exact digitsLE_last n n (le_refl n) (by simpa using h)

theorem natToBytes_injective : Function.Injective natToBytes := by
  intro a b h
  have := congrArg ofBytes h
  simpa [ofBytes_natToBytes] using this

theorem ofBytes_nonneg (b : Bytes) : 0 ≤ ofBytes b := Int.natCast_nonneg _

theorem ofBytes_toNat (b : Bytes) :
    (ofBytes b).toNat = b.foldl (fun acc x => acc * 256 + x.val) 0 := by
  simp [ofBytes]

theorem toBytes_of_nonneg {a : Int} (h : 0 ≤ a) : toBytes a = .ok (natToBytes a.toNat) := by
  simp [toBytes, not_lt.2 h]

/-- Minimal big-endian representation: value and length. -/
theorem digitsLE_length_le : ∀ (fuel n k : Nat), n < 256 ^ k → (digitsLE fuel n).length ≤ k
  | 0, _, _, _ => by simp [digitsLE]
  | fuel + 1, n, k, h => by
    unfold digitsLE
    split
    · simp
    · rename_i h0
      cases k with
      | zero => simp at h; omega
      | succ k =>
        simp only [List.length_cons]
        have := digitsLE_length_le fuel (n / 256) k (by
          rw [Nat.div_lt_iff_lt_mul (by norm_num)]; rw [pow_succ] at h; exact h)
        omega

theorem foldr_lt (l : Bytes) :
    l.foldr (fun b acc => acc * 256 + b.val) 0 < 256 ^ l.length := by
  induction l with
  | nil => simp
  | cons b l ih =>
    simp only [List.foldr_cons, List.length_cons, pow_succ]
    have := b.isLt
    omega

theorem ofBytes_lt (b : Bytes) : ofBytes b < 256 ^ b.length := by
  have := foldr_lt b.reverse
  rw [List.foldr_reverse, List.length_reverse] at this
  unfold ofBytes
  exact_mod_cast this

theorem natToBytes_length_le {n k : Nat} (h : n < 256 ^ k) : (natToBytes n).length ≤ k := by
  unfold natToBytes
  rw [List.length_reverse]
  exact digitsLE_length_le n n k h

theorem natToBytes_zero : natToBytes 0 = [] := rfl

end PJC.BN
