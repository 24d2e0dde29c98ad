import Mathlib.Data.Nat.Choose.Sum
import Mathlib.Data.Nat.Factorial.BigOperators
import Mathlib.RingTheory.Coprime.Lemmas
import Mathlib.NumberTheory.Basic
import Mathlib.Data.Nat.Prime.Int
import Verif.Model.Paillier
import Verif.Lemmas.Exp
/-
Number theory of the Damgard-Jurik tables: the binomial expansion computes
`(1+n)^m`, the decryption recursion inverts it.
-/
namespace PJC.DJ
open Finset

/-! ### Falling factorials -/

/-- `x (x-1) ... (x-k+1)`. -/
def ff (x : Int) : Nat → Int
  | 0 => 1
  | k + 1 => ff x k * (x - k)

theorem ff_modEq {d x y : Int} (h : x ≡ y [ZMOD d]) : ∀ k, ff x k ≡ ff y k [ZMOD d]
  | 0 => Int.ModEq.refl _
  | k + 1 => (ff_modEq h k).mul (h.sub_right _)

theorem ff_nat (M : Nat) : ∀ k, ff (M : Int) k = (M.descFactorial k : Int)
  | 0 => by simp [ff]
  | k + 1 => by
    rw [ff, ff_nat M k, Nat.descFactorial_succ]
    by_cases h : k ≤ M
    · push_cast [Nat.cast_sub h]; ring
    · have : M.descFactorial k = 0 := by rw [Nat.descFactorial_eq_zero_iff_lt]; omega
      simp [this]

theorem ff_choose (M k : Nat) : ff (M : Int) k = (k.factorial : Int) * (M.choose k : Int) := by
  rw [ff_nat, Nat.descFactorial_eq_factorial_mul_choose]; push_cast; ring

/-- Truncated binomial sum. -/
def bsum (n : Int) (M s : Nat) : Int := ∑ k ∈ range (s + 1), (M.choose k : Int) * n ^ k

/-- Truncated binomial sum divided by `n`: `∑_{k=1}^{s} C(M,k) n^(k-1)`. -/
def lsum (n : Int) (M s : Nat) : Int := ∑ k ∈ range s, (M.choose (k + 1) : Int) * n ^ k

theorem bsum_lsum (n : Int) (M s : Nat) : bsum n M s = 1 + n * lsum n M s := by
  unfold bsum lsum
  rw [sum_range_succ', mul_sum]
  simp only [Nat.choose_zero_right, Nat.cast_one, pow_zero, mul_one]
  rw [add_comm]
  congr 1
  apply sum_congr rfl
  intros; ring

theorem pow_bsum (n : Int) (M s : Nat) : (1 + n) ^ M ≡ bsum n M s [ZMOD n ^ (s + 1)] := by
  have h1 : (1 + n) ^ M = ∑ k ∈ range (s + 1 + (M + 1)), (M.choose k : Int) * n ^ k := by
    rw [add_comm, add_pow, add_comm (s + 1), sum_range_add _ (M + 1) (s + 1)]
    have : ∑ k ∈ range (s + 1), ((M.choose (M + 1 + k) : Int)) * n ^ (M + 1 + k) = 0 := by
      apply sum_eq_zero
      intro k _
      rw [Nat.choose_eq_zero_of_lt (by omega)]
      simp
    rw [this, add_zero]
    apply sum_congr rfl
    intro k _
    ring
  rw [h1, sum_range_add]
  have h2 : (∑ k ∈ range (M + 1), (M.choose (s + 1 + k) : Int) * n ^ (s + 1 + k))
      ≡ 0 [ZMOD n ^ (s + 1)] := by
    rw [Int.modEq_zero_iff_dvd]
    apply dvd_sum
    intro k _
    exact Dvd.dvd.mul_left (pow_dvd_pow n (by omega)) _
  simpa [bsum] using h2.add_left (bsum n M s)

theorem lsum_trunc (n b : Int) (hb : b ∣ n) (M : Nat) {j s : Nat} (h : j ≤ s) :
    lsum n M s ≡ lsum n M j [ZMOD b ^ j] := by
  obtain ⟨d, rfl⟩ := Nat.exists_eq_add_of_le h
  unfold lsum
  rw [sum_range_add]
  have : (∑ k ∈ range d, (M.choose (j + k + 1) : Int) * n ^ (j + k)) ≡ 0 [ZMOD b ^ j] := by
    rw [Int.modEq_zero_iff_dvd]
    apply dvd_sum
    intro k _
    apply Dvd.dvd.mul_left
    rw [pow_add]
    exact (pow_dvd_pow_of_dvd hb j).mul_right _
  simpa using this.add_left (∑ k ∈ range j, (M.choose (k + 1) : Int) * n ^ k)

theorem meq_of_eq {a b d : Int} (h : a = b) : a ≡ b [ZMOD d] := h ▸ Int.ModEq.refl _

theorem modEq_of_dvd' {a b d e : Int} (h : a ≡ b [ZMOD e]) (hd : d ∣ e) : a ≡ b [ZMOD d] :=
  Int.modEq_iff_dvd.2 (dvd_trans hd h.dvd)

theorem cancel {f a b d : Int} (hc : IsCoprime f d) (h : f * a ≡ f * b [ZMOD d]) :
    a ≡ b [ZMOD d] := by
  have := h.dvd
  rw [← mul_sub] at this
  exact Int.modEq_iff_dvd.2 (hc.symm.dvd_of_dvd_mul_left this)

theorem emod_modEq (a d : Int) : a % d ≡ a [ZMOD d] := Int.mod_modEq a d

/-! ### GetPowers -/

theorem powersLoop_spec (b : Int) : ∀ (n : Nat) (ps : List Int), ps ≠ [] →
    (∀ i < ps.length, ps.getD i 0 = b ^ i) →
    (powersLoop b n ps).length = ps.length + n ∧
    ∀ i < ps.length + n, (powersLoop b n ps).getD i 0 = b ^ i
  | 0, ps, _, h => ⟨rfl, h⟩
  | n + 1, ps, hne, h => by
    unfold powersLoop
    have hlen : 0 < ps.length := List.length_pos_iff.2 hne
    have := powersLoop_spec b n (ps ++ [ps.getLastD 0 * b]) (by simp) (by
      intro i hi
      simp only [List.length_append, List.length_singleton] at hi
      by_cases hlt : i < ps.length
      · rw [List.getD_append _ _ _ _ hlt]; exact h i hlt
      · have : i = ps.length := by omega
        subst this
        rw [List.getD_append_right _ _ _ _ (le_refl _)]
        simp only [Nat.sub_self, List.getD_cons_zero]
        have hl : ps.getLastD 0 = ps.getD (ps.length - 1) 0 := by
          rw [List.getLastD_eq_getLast?, List.getLast?_eq_getElem?]
          rfl
        rw [hl, h _ (by omega), ← pow_succ]
        congr 1
        omega)
    simp only [List.length_append, List.length_singleton] at this
    exact ⟨by omega, fun i hi => this.2 i (by omega)⟩

theorem getPowers_get (b : Int) (s i : Nat) (h : i ≤ s + 1) : (getPowers b s).getD i 0 = b ^ i := by
  apply (powersLoop_spec b (s + 1) [1] (by simp) (by
    intro i hi
    simp at hi
    subst hi
    simp)).2
  simp; omega

theorem getPowers_length (b : Int) (s : Nat) : (getPowers b s).length = s + 2 := by
  have := (powersLoop_spec b (s + 1) [1] (by simp) (by
    intro i hi
    simp at hi
    subst hi
    simp)).1
  unfold getPowers
  rw [this]
  simp; omega

theorem getPowers_last (b : Int) (s : Nat) : (getPowers b s).getLastD 0 = b ^ (s + 1) := by
  have hl : (getPowers b s).getLastD 0 = (getPowers b s).getD ((getPowers b s).length - 1) 0 := by
    rw [List.getLastD_eq_getLast?, List.getLast?_eq_getElem?]
    rfl
  rw [hl, getPowers_length, getPowers_get _ _ _ (by omega)]
  rfl

/-! ### GetPrecomp -/

theorem precompLoop_spec (num modulus : Int) (hm : 0 < modulus) :
    ∀ (n i : Nat) (pre : List Int), 0 < i → pre.length = i →
    (∀ k, i ≤ k → k < i + n → Int.gcd (k : Int) modulus = 1) →
    (∀ k < i, (k.factorial : Int) * pre.getD k 0 ≡ num ^ k [ZMOD modulus]) →
    ∃ out, precompLoop num modulus n i pre = .ok out ∧ out.length = i + n ∧
      ∀ k < i + n, (k.factorial : Int) * out.getD k 0 ≡ num ^ k [ZMOD modulus]
  | 0, i, pre, _, hl, _, h => ⟨pre, rfl, hl, h⟩
  | n + 1, i, pre, hi, hl, hg, h => by
    unfold precompLoop
    have hgi := hg i (le_refl _) (by omega)
    rw [BN.modInverse_ok hm hgi]
    simp only [Res.value_ok, Res.ok_bind]
    have hinv := (BN.inv_spec hm hgi).1
    set iv := BN.inv (i : Int) modulus
    obtain ⟨out, h1, h2, h3⟩ := precompLoop_spec num modulus hm n (i + 1)
      (pre ++ [pre.getLastD 0 * (iv * num % modulus) % modulus]) (by omega) (by simp [hl])
      (fun k hk hk2 => hg k (by omega) (by omega)) (by
        intro k hk
        by_cases hlt : k < i
        · rw [List.getD_append _ _ _ _ (by omega)]; exact h k hlt
        · have hki : k = i := by omega
          subst hki
          rw [List.getD_append_right _ _ _ _ (by omega), hl]
          simp only [Nat.sub_self, List.getD_cons_zero]
          have hlast : pre.getLastD 0 = pre.getD (k - 1) 0 := by
            rw [List.getLastD_eq_getLast?, List.getLast?_eq_getElem?, hl]
            rfl
          rw [hlast]
          have hprev := h (k - 1) (by omega)
          have e1 : pre.getD (k - 1) 0 * (iv * num % modulus) % modulus
              ≡ pre.getD (k - 1) 0 * (iv * num) [ZMOD modulus] :=
            (emod_modEq _ _).trans ((emod_modEq _ _).mul_left _)
          refine (e1.mul_left _).trans ?_
          have hf : k.factorial = k * (k - 1).factorial := by
            rw [Nat.mul_factorial_pred (by omega)]
          have e2 : (k.factorial : Int) * (pre.getD (k - 1) 0 * (iv * num))
              = (k * iv) * (((k - 1).factorial : Int) * pre.getD (k - 1) 0) * num := by
            rw [hf]; push_cast; ring
          rw [e2]
          have e3 := (hinv.mul hprev).mul_right num
          refine e3.trans ?_
          rw [one_mul, ← pow_succ]
          have : k - 1 + 1 = k := by omega
          rw [this])
    exact ⟨out, h1, by omega, fun k hk => h3 k (by omega)⟩

theorem getPrecomp_spec (num modulus : Int) (s : Nat) (hm : 0 < modulus)
    (hg : ∀ k : Nat, 1 ≤ k → k ≤ s → Int.gcd (k : Int) modulus = 1) :
    ∃ pre, getPrecomp num modulus s = .ok pre ∧ pre.length = s + 1 ∧
      ∀ k ≤ s, (k.factorial : Int) * pre.getD k 0 ≡ num ^ k [ZMOD modulus] := by
  obtain ⟨out, h1, h2, h3⟩ := precompLoop_spec num modulus hm s 1 [1] (by omega) (by simp)
    (fun k hk hk2 => hg k hk (by omega)) (by
      intro k hk
      have : k = 0 := by omega
      subst this
      simp)
  exact ⟨out, h1, by omega, fun k hk => h3 k (by omega)⟩

/-- If some index up to `s` is not invertible the construction aborts. -/
theorem getPrecomp_crash (num modulus : Int) (s : Nat) :
    ∀ (n i : Nat) (pre : List Int), (∃ k, i ≤ k ∧ k < i + n ∧ BN.modInverse (k : Int) modulus
      = .err .invalidArgument) → precompLoop num modulus n i pre = .crash
  | 0, i, pre, ⟨k, h1, h2, _⟩ => by omega
  | n + 1, i, pre, ⟨k, h1, h2, h3⟩ => by
    unfold precompLoop
    by_cases hk : k = i
    · subst hk; rw [h3]; rfl
    · cases hh : BN.modInverse (i : Int) modulus with
      | ok v =>
        simp only [Res.value_ok, Res.ok_bind]
        exact getPrecomp_crash num modulus s n (i + 1) _ ⟨k, by omega, by omega, h3⟩
      | err c => rfl
      | crash => rfl
      | ub => unfold BN.modInverse at hh; split at hh <;> cases hh

theorem factorial_coprime {b : Int} {k : Nat}
    (h : ∀ i : Nat, 1 ≤ i → i ≤ k → IsCoprime (i : Int) b) : IsCoprime (k.factorial : Int) b := by
  induction k with
  | zero => simpa using isCoprime_one_left
  | succ k ih =>
    rw [Nat.factorial_succ]
    push_cast
    exact IsCoprime.mul_left (by exact_mod_cast h (k + 1) (by omega) (le_refl _))
      (ih (fun i h1 h2 => h i h1 (by omega)))

/-! ### The binomial loop -/

theorem binomLoop_spec (b n : Int) (hb : b ∣ n) (s : Nat) (precomp powers : List Int) (rm : Nat)
    (hpow : ∀ i ≤ s + 1, powers.getD i 0 = b ^ i)
    (hpre : ∀ k ≤ s, (k.factorial : Int) * precomp.getD k 0 ≡ n ^ k [ZMOD b ^ (s + 1)])
    (hco : ∀ i : Nat, 1 ≤ i → i ≤ s → IsCoprime (i : Int) b) :
    ∀ (cnt j : Nat) (c tmp : Int), 1 ≤ j → j + cnt = s + 1 →
      tmp ≡ ff (rm : Int) (j - 1) [ZMOD b ^ (s + 2 - j)] →
      c ≡ bsum n rm (j - 1) [ZMOD b ^ (s + 1)] →
      binomLoop precomp powers s (rm : Int) cnt j c tmp ≡ bsum n rm s [ZMOD b ^ (s + 1)]
  | 0, j, c, tmp, hj, hc, _, h => by
    have : j - 1 = s := by omega
    rw [this] at h
    simpa [binomLoop] using h
  | cnt + 1, j, c, tmp, hj, hc, ht, h => by
    unfold binomLoop
    split
    · rename_i hlt
      have hlt' : rm < j := by exact_mod_cast hlt
      -- all later binomials vanish
      have : bsum n rm s = bsum n rm (j - 1) := by
        unfold bsum
        have hs : s + 1 = (j - 1 + 1) + (s + 1 - j) := by omega
        rw [hs, sum_range_add]
        have : ∑ k ∈ range (s + 1 - j), (rm.choose (j - 1 + 1 + k) : Int) * n ^ (j - 1 + 1 + k)
            = 0 := by
          apply sum_eq_zero
          intro k _
          rw [Nat.choose_eq_zero_of_lt (by omega)]
          simp
        rw [this, add_zero]
      rw [this]
      exact h
    · simp only
      have hp1 : powers.getD (s - j + 1) 0 = b ^ (s - j + 1) := hpow _ (by omega)
      have hp2 : powers.getD (s + 1) 0 = b ^ (s + 1) := hpow _ (le_refl _)
      rw [hp1, hp2]
      set tmp' := tmp * ((rm : Int) - (j : Int) + 1) % b ^ (s - j + 1) with htmp'
      have ht' : tmp' ≡ ff (rm : Int) j [ZMOD b ^ (s - j + 1)] := by
        refine (emod_modEq _ _).trans ?_
        have e : ff (rm : Int) j = ff (rm : Int) (j - 1) * ((rm : Int) - (j : Int) + 1) := by
          obtain ⟨i, rfl⟩ : ∃ i, j = i + 1 := ⟨j - 1, by omega⟩
          simp only [Nat.add_sub_cancel]
          rw [ff]
          push_cast
          ring
        rw [e]
        apply Int.ModEq.mul_right
        exact modEq_of_dvd' ht (pow_dvd_pow b (by omega))
      have hco' : IsCoprime (j.factorial : Int) (b ^ (s + 1)) :=
        (factorial_coprime (fun i h1 h2 => hco i h1 (by omega))).pow_right
      have hterm : tmp' * precomp.getD j 0 ≡ (rm.choose j : Int) * n ^ j [ZMOD b ^ (s + 1)] := by
        apply cancel hco'
        have h1 : (j.factorial : Int) * (tmp' * precomp.getD j 0)
            ≡ tmp' * n ^ j [ZMOD b ^ (s + 1)] := by
          have := (hpre j (by omega)).mul_left tmp'
          refine Int.ModEq.trans ?_ this
          apply meq_of_eq
          ring
        refine h1.trans ?_
        have h2 : tmp' * n ^ j ≡ ff (rm : Int) j * n ^ j [ZMOD b ^ (s + 1)] := by
          have hd := ht'.dvd
          rw [Int.modEq_iff_dvd, ← sub_mul]
          have : b ^ (s + 1) = b ^ (s - j + 1) * b ^ j := by
            rw [← pow_add]; congr 1; omega
          rw [this]
          exact mul_dvd_mul hd (pow_dvd_pow_of_dvd hb j)
        refine h2.trans ?_
        rw [ff_choose]
        apply meq_of_eq
        ring
      apply binomLoop_spec b n hb s precomp powers rm hpow hpre hco cnt (j + 1)
      · omega
      · omega
      · have e : s + 2 - (j + 1) = s - j + 1 := by omega
        simp only [Nat.add_sub_cancel]
        rw [e]; exact ht'
      · simp only [Nat.add_sub_cancel]
        have e : bsum n rm j = bsum n rm (j - 1) + (rm.choose j : Int) * n ^ j := by
          unfold bsum
          rw [sum_range_succ, show j - 1 + 1 = j by omega]
        rw [e]
        exact h.add ((emod_modEq _ _).trans hterm)

/-- `ComputeByBinomialExpansion` computes `(1+n)^message` modulo `b^(s+1)`. -/
theorem binomialExpansion_spec (b n : Int) (hb0 : 0 < b) (hb : b ∣ n) (s : Nat)
    (precomp powers : List Int) (hlen : precomp.length = s + 1)
    (hpow : ∀ i ≤ s + 1, powers.getD i 0 = b ^ i)
    (hpre : ∀ k ≤ s, (k.factorial : Int) * precomp.getD k 0 ≡ n ^ k [ZMOD b ^ (s + 1)])
    (hco : ∀ i : Nat, 1 ≤ i → i ≤ s → IsCoprime (i : Int) b) (m : Int) :
    binomialExpansion precomp powers m ≡ (1 + n) ^ (m % b ^ s).toNat [ZMOD b ^ (s + 1)] := by
  unfold binomialExpansion
  simp only [hlen, Nat.add_sub_cancel]
  rw [hpow s (by omega)]
  have hnn : 0 ≤ m % b ^ s := Int.emod_nonneg _ (ne_of_gt (pow_pos hb0 s))
  obtain ⟨rm, hrm⟩ := Int.eq_ofNat_of_zero_le hnn
  rw [hrm]
  simp only [Int.toNat_natCast]
  have h1 := binomLoop_spec b n hb s precomp powers rm hpow hpre hco s 1 1 1 (le_refl _) (by omega)
    (by simp [ff]) (by simp [bsum])
  refine h1.trans ?_
  exact (modEq_of_dvd' (pow_bsum n rm s) (pow_dvd_pow_of_dvd hb _)).symm

/-- The exponent matters only modulo `b^s`. -/
theorem one_add_pow_period (b : Nat) (n : Int) (hb : (b : Int) ∣ n) (s : Nat) {x y : Nat}
    (h : x ≡ y [MOD b ^ s]) : (1 + n) ^ x ≡ (1 + n) ^ y [ZMOD (b : Int) ^ (s + 1)] := by
  have hp : (1 + n) ^ (b ^ s) ≡ 1 [ZMOD (b : Int) ^ (s + 1)] := by
    have := dvd_sub_pow_of_dvd_sub (R := Int) (p := b) (a := 1 + n) (b := 1) (by simpa using hb) s
    rw [one_pow] at this
    exact (Int.modEq_iff_dvd.2 this).symm
  have key : ∀ x : Nat, (1 + n) ^ x ≡ (1 + n) ^ (x % b ^ s) [ZMOD (b : Int) ^ (s + 1)] := by
    intro x
    conv_lhs => rw [← Nat.mod_add_div x (b ^ s), pow_add, pow_mul]
    simpa using (hp.pow (x / b ^ s)).mul_left ((1 + n) ^ (x % b ^ s))
  have h' : x % b ^ s = y % b ^ s := h
  exact (key x).trans (h' ▸ (key y).symm)

/-! ### The decryption table -/

theorem Table.insert_self {t : Table} {x y : Nat} {v : Int} (h : t x y = none) :
    (t.insert x y v) x y = some v := by simp [Table.insert, h]

theorem Table.insert_ne {t : Table} {x y x' y' : Nat} {v : Int} (h : ¬ (x' = x ∧ y' = y)) :
    (t.insert x y v) x' y' = t x' y' := by
  unfold Table.insert
  rw [if_neg h]

/-- Entry `(k, j)` is right: it is `n^(k-1) / k!` modulo `b^j`. -/
def EntryOk (b n : Int) (k j : Nat) (o : Option Int) : Prop :=
  ∃ v, o = some v ∧ (k.factorial : Int) * v ≡ n ^ (k - 1) [ZMOD b ^ j]

theorem decRowLoop_spec (b n : Int) (powers : List Int) (s k : Nat)
    (hpow : ∀ i ≤ s + 1, powers.getD i 0 = b ^ i) :
    ∀ (cnt j1 : Nat) (t : Table), j1 ≤ s → cnt ≤ j1 →
      EntryOk b n k j1 (t k j1) → (∀ j < j1, t k j = none) →
      ∃ t', decRowLoop powers k cnt j1 t = .ok t' ∧
        (∀ x y, x ≠ k → t' x y = t x y) ∧ (∀ y, j1 < y → t' k y = t k y) ∧
        (∀ j, j1 - cnt ≤ j → j ≤ j1 → EntryOk b n k j (t' k j))
  | 0, j1, t, _, _, he, hn => ⟨t, rfl, fun _ _ _ => rfl, fun _ _ => rfl, fun j h1 h2 => by
      have : j = j1 := by omega
      subst this; exact he⟩
  | cnt + 1, j1, t, hj, hc, he, hn => by
    unfold decRowLoop
    obtain ⟨v, hv, hm⟩ := he
    have hget : t.get k j1 = .ok v := by simp [Table.get, hv]
    rw [hget]
    simp only [Res.ok_bind]
    rw [hpow (j1 - 1) (by omega)]
    have hnone : t k (j1 - 1) = none := hn _ (by omega)
    obtain ⟨t', h1, h2, h3, h4⟩ := decRowLoop_spec b n powers s k hpow cnt (j1 - 1)
      (t.insert k (j1 - 1) (v % b ^ (j1 - 1))) (by omega) (by omega)
      ⟨v % b ^ (j1 - 1), Table.insert_self hnone, by
        have := (emod_modEq v (b ^ (j1 - 1))).mul_left (k.factorial : Int)
        exact this.trans (modEq_of_dvd' hm (pow_dvd_pow b (by omega)))⟩
      (by
        intro j hlt
        rw [Table.insert_ne (by omega)]
        exact hn j (by omega))
    refine ⟨t', h1, ?_, ?_, ?_⟩
    · intro x y hx
      rw [h2 x y hx, Table.insert_ne (by omega)]
    · intro y hy
      rw [h3 y (by omega), Table.insert_ne (by omega)]
    · intro j hj1 hj2
      by_cases hlt : j ≤ j1 - 1
      · exact h4 j (by omega) hlt
      · have : j = j1 := by omega
        subst this
        rw [h3 j (by omega), Table.insert_ne (by omega)]
        exact ⟨v, hv, hm⟩

theorem decTableLoop_spec (b n : Int) (hb0 : 0 < b) (powers precomp : List Int) (s : Nat)
    (hpow : ∀ i ≤ s + 1, powers.getD i 0 = b ^ i)
    (hpre : ∀ k ≤ s, (k.factorial : Int) * precomp.getD k 0 ≡ n ^ k [ZMOD b ^ (s + 1)])
    (hco : ∀ i : Nat, 1 ≤ i → i ≤ s → IsCoprime (i : Int) b) :
    ∀ (cnt k : Nat) (t : Table), 2 ≤ k → k + cnt ≤ s + 1 →
      (∀ x j, 2 ≤ x → x < k → x ≤ j → j ≤ s → EntryOk b n x j (t x j)) →
      (∀ x j, k ≤ x → t x j = none) →
      ∃ t', decTableLoop precomp powers s cnt k t = .ok t' ∧
        ∀ x j, 2 ≤ x → x < k + cnt → x ≤ j → j ≤ s → EntryOk b n x j (t' x j)
  | 0, k, t, _, _, h, _ => ⟨t, rfl, fun x j h1 h2 h3 h4 => h x j h1 (by omega) h3 h4⟩
  | cnt + 1, k, t, hk, hkc, h, hn => by
    unfold decTableLoop
    have hps : powers.getD s 0 = b ^ s := hpow s (by omega)
    rw [hps]
    have hg : Int.gcd (k : Int) (b ^ s) = 1 :=
      Int.isCoprime_iff_gcd_eq_one.1 ((hco k (by omega) (by omega)).pow_right)
    have hbs : 0 < b ^ s := pow_pos hb0 s
    rw [BN.modInverse_ok hbs hg]
    simp only [Res.value_ok, Res.ok_bind]
    have hinv := (BN.inv_spec hbs hg).1
    set kv := BN.inv (k : Int) (b ^ s)
    obtain ⟨t', h1, h2, h3, h4⟩ := decRowLoop_spec b n powers s k hpow (s - k) s
      (t.insert k s (kv * precomp.getD (k - 1) 0 % b ^ s)) (le_refl _) (by omega)
      ⟨_, Table.insert_self (hn k s (le_refl _)), by
        have e1 := (emod_modEq (kv * precomp.getD (k - 1) 0) (b ^ s)).mul_left (k.factorial : Int)
        refine e1.trans ?_
        have hf : k.factorial = k * (k - 1).factorial := by
          rw [Nat.mul_factorial_pred (by omega)]
        have e2 : (k.factorial : Int) * (kv * precomp.getD (k - 1) 0)
            = (k * kv) * (((k - 1).factorial : Int) * precomp.getD (k - 1) 0) := by
          rw [hf]; push_cast; ring
        rw [e2]
        have := hinv.mul (modEq_of_dvd' (hpre (k - 1) (by omega)) (pow_dvd_pow b (Nat.le_succ s)))
        simpa using this⟩
      (by
        intro j hj
        rw [Table.insert_ne (by omega)]
        exact hn k j (le_refl _))
    rw [h1]
    simp only [Res.ok_bind]
    obtain ⟨t'', g1, g2⟩ := decTableLoop_spec b n hb0 powers precomp s hpow hpre hco cnt (k + 1) t'
      (by omega) (by omega) (by
        intro x j hx1 hx2 hx3 hx4
        by_cases hxk : x = k
        · subst hxk
          exact h4 j (by omega) hx4
        · rw [h2 x j hxk, Table.insert_ne (by omega)]
          exact h x j hx1 (by omega) hx3 hx4) (by
        intro x j hx
        rw [h2 x j (by omega), Table.insert_ne (by omega)]
        exact hn x j (by omega))
    exact ⟨t'', g1, fun x j h1 h2 h3 h4 => g2 x j h1 (by omega) h3 h4⟩

theorem getDecryptPrecomp_spec (b n : Int) (hb0 : 0 < b) (powers precomp : List Int) (s : Nat)
    (hpow : ∀ i ≤ s + 1, powers.getD i 0 = b ^ i)
    (hpre : ∀ k ≤ s, (k.factorial : Int) * precomp.getD k 0 ≡ n ^ k [ZMOD b ^ (s + 1)])
    (hco : ∀ i : Nat, 1 ≤ i → i ≤ s → IsCoprime (i : Int) b) :
    ∃ t, getDecryptPrecomp precomp powers s = .ok t ∧
      ∀ k j, 2 ≤ k → k ≤ j → j ≤ s → EntryOk b n k j (t k j) := by
  by_cases hs : s = 0
  · subst hs
    exact ⟨_, rfl, fun k j h1 h2 h3 => by omega⟩
  · obtain ⟨t, h1, h2⟩ := decTableLoop_spec b n hb0 powers precomp s hpow hpre hco (s - 1) 2
      (fun _ _ => none) (le_refl _) (by omega) (fun x j h1 h2 => by omega) (fun _ _ _ => rfl)
    exact ⟨t, h1, fun k j h3 h4 h5 => h2 k j h3 (by omega) h4 h5⟩

/-! ### The decryption recursion -/

/-- One subtraction of the recursion: with `i0 ≡ M (mod b^(j-1))`, the term
`t2 * table(k,j)` is `C(M,k) n^(k-1)` modulo `b^j`. -/
theorem term_spec (b n : Int) (hb : b ∣ n) (M k j : Nat) (i0 t2 v : Int) (hk : 2 ≤ k) (hj : 1 ≤ j)
    (hco : IsCoprime (k.factorial : Int) b)
    (hi : i0 ≡ (M : Int) [ZMOD b ^ (j - 1)]) (ht : t2 ≡ ff i0 k [ZMOD b ^ j])
    (hv : (k.factorial : Int) * v ≡ n ^ (k - 1) [ZMOD b ^ j]) :
    t2 * v ≡ (M.choose k : Int) * n ^ (k - 1) [ZMOD b ^ j] := by
  apply cancel (hco.pow_right (n := j))
  have h1 : (k.factorial : Int) * (t2 * v) ≡ ff i0 k * n ^ (k - 1) [ZMOD b ^ j] := by
    have := ht.mul hv
    refine Int.ModEq.trans (meq_of_eq ?_) this
    ring
  refine h1.trans ?_
  have h2 : ff i0 k * n ^ (k - 1) ≡ ff (M : Int) k * n ^ (k - 1) [ZMOD b ^ j] := by
    have hd := (ff_modEq hi k).dvd
    rw [Int.modEq_iff_dvd, ← sub_mul]
    have : b ^ j = b ^ (j - 1) * b := by
      rw [← pow_succ]; congr 1; omega
    rw [this]
    apply mul_dvd_mul hd
    exact dvd_trans hb (dvd_pow_self n (by omega))
  refine h2.trans (meq_of_eq ?_)
  rw [ff_choose]
  ring

theorem lsum_succ (n : Int) (M s : Nat) :
    lsum n M (s + 1) = lsum n M s + (M.choose (s + 1) : Int) * n ^ s := by
  unfold lsum
  rw [sum_range_succ]

end PJC.DJ

namespace PJC.PrimeCrypto
open PJC.DJ

theorem decInner_spec (pc : PrimeCrypto) (b n : Int) (hb : b ∣ n) (s M j : Nat) (i0 L : Int)
    (hj : 1 ≤ j) (hjs : j ≤ s) (hpow : pc.pToExp j = b ^ j)
    (htab : ∀ k j, 2 ≤ k → k ≤ j → j ≤ s → EntryOk b n k j (pc.decryptPrecomp k j))
    (hco : ∀ i : Nat, 1 ≤ i → i ≤ s → IsCoprime (i : Int) b)
    (hi : i0 ≡ (M : Int) [ZMOD b ^ (j - 1)]) :
    ∀ (cnt k : Nat) (mL t1 t2 : Int), 2 ≤ k → k + cnt = j + 1 → mL = i0 - ((k - 2 : Nat) : Int) →
      t2 ≡ ff i0 (k - 1) [ZMOD b ^ j] →
      t1 ≡ L - (lsum n M (k - 1) - (M : Int)) [ZMOD b ^ j] →
      ∃ r, decInner pc j cnt k mL t1 t2 = .ok r ∧
        r ≡ L - (lsum n M j - (M : Int)) [ZMOD b ^ j]
  | 0, k, mL, t1, t2, _, hc, _, _, h => ⟨t1, rfl, by
      have : k - 1 = j := by omega
      rwa [this] at h⟩
  | cnt + 1, k, mL, t1, t2, hk, hc, hmL, ht2, h => by
    unfold decInner
    obtain ⟨v, hv, hvm⟩ := htab k j hk (by omega) hjs
    have hget : pc.decryptPrecomp.get k j = .ok v := by simp [Table.get, hv]
    simp only [hget, Res.ok_bind, hpow]
    have ht2' : t2 * (mL - 1) % b ^ j ≡ ff i0 k [ZMOD b ^ j] := by
      refine (emod_modEq _ _).trans ?_
      have e : ff i0 k = ff i0 (k - 1) * (mL - 1) := by
        obtain ⟨i, rfl⟩ : ∃ i, k = i + 2 := ⟨k - 2, by omega⟩
        rw [hmL]
        simp only [Nat.add_sub_cancel, Nat.add_succ_sub_one]
        rw [ff]
        push_cast
        ring
      rw [e]
      exact ht2.mul_right _
    apply decInner_spec pc b n hb s M j i0 L hj hjs hpow htab hco hi cnt (k + 1)
    · omega
    · omega
    · rw [hmL]
      have : ((k + 1 - 2 : Nat) : Int) = ((k - 2 : Nat) : Int) + 1 := by omega
      rw [this]; ring
    · simpa using ht2'
    · have hterm := term_spec b n hb M k j i0 _ v hk hj
        (factorial_coprime (fun i h1 h2 => hco i h1 (by omega))) hi ht2' hvm
      have := h.sub hterm
      refine this.trans (meq_of_eq ?_)
      obtain ⟨i, rfl⟩ : ∃ i, k = i + 1 := ⟨k - 1, by omega⟩
      simp only [Nat.add_sub_cancel]
      rw [lsum_succ]
      ring

theorem decOuter_spec (pc : PrimeCrypto) (b n : Int) (hb : b ∣ n) (s M : Nat) (lu : Int)
    (hpow : ∀ i ≤ s, pc.pToExp i = b ^ i)
    (htab : ∀ k j, 2 ≤ k → k ≤ j → j ≤ s → EntryOk b n k j (pc.decryptPrecomp k j))
    (hco : ∀ i : Nat, 1 ≤ i → i ≤ s → IsCoprime (i : Int) b)
    (hlu : lu ≡ lsum n M s [ZMOD b ^ s]) :
    ∀ (cnt j : Nat) (mL : Int), 1 ≤ j → j + cnt = s + 1 → mL ≡ (M : Int) [ZMOD b ^ (j - 1)] →
      ∃ r, decOuter pc lu cnt j mL = .ok r ∧ r ≡ (M : Int) [ZMOD b ^ s]
  | 0, j, mL, _, hc, h => ⟨mL, rfl, by
      have : j - 1 = s := by omega
      rwa [this] at h⟩
  | cnt + 1, j, mL, hj, hc, h => by
    unfold decOuter
    have hp := hpow j (by omega)
    obtain ⟨r, hr, hrm⟩ := decInner_spec pc b n hb s M j mL lu hj (by omega) hp htab hco h
      (j - 1) 2 mL (lu % pc.pToExp j) mL (le_refl _) (by omega) (by simp)
      (by simp [ff]) (by
        rw [hp]
        simpa [lsum] using emod_modEq lu (b ^ j))
    simp only [hr, Res.ok_bind]
    apply decOuter_spec pc b n hb s M lu hpow htab hco hlu cnt (j + 1) r (by omega) (by omega)
    simp only [Nat.add_sub_cancel]
    refine hrm.trans ?_
    have h1 : lu ≡ lsum n M j [ZMOD b ^ j] :=
      (modEq_of_dvd' hlu (pow_dvd_pow b (by omega))).trans (lsum_trunc n b hb M (by omega))
    have := h1.sub_right (lsum n M j - (M : Int))
    refine this.trans (meq_of_eq ?_)
    ring

end PJC.PrimeCrypto
