import Verif.Lemmas.BigNum
import Verif.Lemmas.Ec
import Verif.Model.Context
import Mathlib.Data.List.Induction
import Mathlib.Algebra.Order.Floor.Ring
import Mathlib.Data.Rat.Floor
import Mathlib.Tactic.Linarith
import Mathlib.Tactic.NormNum
/-
C30, C31, C65: random oracle, PRF and sampling.
-/
set_option linter.unusedSectionVars false
namespace PJC
open Ctx

/-- **C30**.  For every hash function of `len` output bits (256, 384 or 512 in the
code), the random oracle returns a value of `[0, max)` for every positive bound whose
size is supported; it aborts for larger bounds, and for `max = 0`. -/
theorem C30_oracle_range (h : Bytes → Bytes) (len : Nat) (hlen : 0 < len)
    (x : Bytes) (max : BigNum) :
    (0 < max → iterCount len max * len < 130048 →
      ∃ v, randomOracle h len x max = .ok v ∧ 0 ≤ v ∧ v < max) ∧
    (130048 ≤ iterCount len max * len → randomOracle h len x max = .crash) ∧
    randomOracle h len x 0 = .crash := by
  have excess : ∀ max : BigNum,
      0 ≤ ((iterCount len max * len : Nat) : Int) - ((BN.bitLength max + len : Nat) : Int) := by
    intro max
    have : BN.bitLength max + len ≤ iterCount len max * len := by
      simp only [iterCount]
      have h1 := Nat.div_add_mod (BN.bitLength max + len + len - 1) len
      have h2 := Nat.mod_lt (BN.bitLength max + len + len - 1) hlen
      rw [Nat.mul_comm] at h1
      omega
    omega
  refine ⟨fun hmax hit => ?_, fun hit => ?_, ?_⟩
  · refine ⟨(oracleLoop h len x (iterCount len max) 1 0).tdiv
        (2 ^ (((iterCount len max * len : Nat) : Int)
          - ((BN.bitLength max + len : Nat) : Int)).toNat) % max, ?_,
      Int.emod_nonneg _ (ne_of_gt hmax), Int.emod_lt_of_pos _ hmax⟩
    · simp only [randomOracle, hit, if_true, BN.rshift, BN.mod]
      rw [if_neg (by have := excess max; omega), Res.ok_bind, if_neg (ne_of_gt hmax)]
  · simp only [randomOracle]
    rw [if_neg (by omega)]
  · simp only [randomOracle]
    split
    · simp only [BN.rshift]
      rw [if_neg (by have := excess 0; omega)]
      simp [BN.mod]
    · rfl

/-- The blocks the oracle hashes: the hash inputs of counters `1 .. iter_count`. -/
def oracleBlocks (len : Nat) (x : Bytes) (max : BigNum) : List Bytes :=
  (List.range (iterCount len max)).map fun i => oracleInput (i + 1) x

/-- **C30, determinism**: the value depends only on `x`, `max` and the hashes of the
blocks of counters `1 .. iter_count`. -/
theorem C30_oracle_determined (h h' : Bytes → Bytes) (len : Nat) (x : Bytes) (max : BigNum)
    (heq : ∀ b ∈ oracleBlocks len x max, h b = h' b) :
    randomOracle h len x max = randomOracle h' len x max := by
  have loop : ∀ (n i : Nat) (acc : BigNum),
      (∀ j, i ≤ j → j < i + n → h (oracleInput j x) = h' (oracleInput j x)) →
      oracleLoop h len x n i acc = oracleLoop h' len x n i acc := by
    intro n
    induction n with
    | zero => intros; rfl
    | succ n ih =>
      intro i acc hh
      simp only [oracleLoop, hh i (le_refl i) (by omega)]
      exact ih _ _ (fun j h1 h2 => hh j (by omega) (by omega))
  simp only [randomOracle]
  rw [loop (iterCount len max) 1 0]
  intro j h1 h2
  apply heq
  simp only [oracleBlocks, List.mem_map, List.mem_range]
  exact ⟨j - 1, by omega, by rw [Nat.sub_add_cancel h1]⟩

theorem natToBytes_single {i : Nat} (h1 : 1 ≤ i) (h2 : i ≤ 255) :
    ∃ b : Byte, BN.natToBytes i = [b] := by
  have hlen : (BN.natToBytes i).length ≤ 1 := BN.natToBytes_length_le (by omega)
  cases hb : BN.natToBytes i with
  | nil =>
    have : BN.natToBytes i = BN.natToBytes 0 := by rw [hb, BN.natToBytes_zero]
    have := BN.natToBytes_injective this
    omega
  | cons b rest =>
    rw [hb] at hlen
    simp only [List.length_cons] at hlen
    have : rest = [] := by
      apply List.eq_nil_of_length_eq_zero; omega
    exact ⟨b, by rw [this]⟩

/-- **C30, domain separation**: while at most 255 blocks are needed, hash inputs of
different counters or different oracle arguments never coincide; for one argument they
never coincide at all. -/
theorem C30_distinct_blocks :
    (∀ (i j : Nat) (x y : Bytes), 1 ≤ i → i ≤ 255 → 1 ≤ j → j ≤ 255 →
      oracleInput i x = oracleInput j y → i = j ∧ x = y) ∧
    (∀ (i j : Nat) (x : Bytes), oracleInput i x = oracleInput j x → i = j) := by
  constructor
  · intro i j x y hi1 hi2 hj1 hj2 h
    obtain ⟨b, hb⟩ := natToBytes_single hi1 hi2
    obtain ⟨c, hc⟩ := natToBytes_single hj1 hj2
    simp only [oracleInput, hb, hc, List.cons_append, List.nil_append, List.cons.injEq] at h
    refine ⟨BN.natToBytes_injective ?_, h.2⟩
    rw [hb, hc, h.1]
  · intro i j x h
    exact BN.natToBytes_injective (List.append_cancel_right h)

theorem bitLength_two_pow_sub_one (n : Nat) : BN.bitLength (2 ^ n - 1) = n := by
  have h1 : (1 : Nat) ≤ 2 ^ n := Nat.one_le_two_pow
  have h : ((2 : Int) ^ n - 1).natAbs = 2 ^ n - 1 := by
    have h2 : ((2 : Int) ^ n - 1) = ((2 ^ n - 1 : Nat) : Int) := by
      rw [Nat.cast_sub h1]; norm_num
    rw [h2, Int.natAbs_natCast]
  rw [BN.bitLength, h]
  apply le_antisymm
  · rw [Nat.size_le]; omega
  · cases n with
    | zero => omega
    | succ m =>
      rw [Nat.succ_le_iff, Nat.lt_size, pow_succ]
      have h4 : (1 : Nat) ≤ 2 ^ m := Nat.one_le_two_pow
      omega

/-- Beyond 255 blocks the separation stops: block 256 of `x` is block 1 of `0 :: x`,
and bounds that need 256 blocks are accepted. -/
theorem C30_wide_oracle_collides :
    (∀ x : Bytes, oracleInput 256 x = oracleInput 1 ((0 : Byte) :: x)) ∧
    ∃ bits : Nat, iterCount 256 (2 ^ bits - 1) = 256 ∧
      iterCount 256 (2 ^ bits - 1) * 256 < 130048 := by
  refine ⟨fun x => rfl, 65280, ?_⟩
  have h := bitLength_two_pow_sub_one 65280
  constructor <;> rw [iterCount, h] <;> decide

/-- Bounds of 256 bits (the field size of P-256) are within the supported range. -/
example : iterCount 256 (2 ^ 256 - 1) * 256 < 130048 := by
  rw [iterCount, bitLength_two_pow_sub_one]; decide

/-- Reading a concatenation: the first part shifted left by the bits of the second. -/
theorem ofBytes_append (a b : Bytes) :
    BN.ofBytes (a ++ b) = BN.ofBytes a * 2 ^ (b.length * 8) + BN.ofBytes b := by
  induction b using List.reverseRecOn with
  | nil => simp [BN.ofBytes]
  | append_singleton b x ih =>
    simp only [BN.ofBytes] at ih ⊢
    rw [← List.append_assoc, List.foldl_append, List.foldl_append (l := b)]
    simp only [List.foldl_cons, List.foldl_nil, List.length_append, List.length_cons,
      List.length_nil]
    push_cast at ih ⊢
    rw [ih]
    ring

theorem oracleLoop_eq (h : Bytes → Bytes) (len : Nat) (hh : ∀ b, (h b).length * 8 = len)
    (x : Bytes) : ∀ (n i : Nat) (pre : Bytes),
    oracleLoop h len x n i (BN.ofBytes pre) =
      BN.ofBytes (pre ++ (List.range' i n).flatMap fun j => h (oracleInput j x)) := by
  intro n
  induction n with
  | zero => intro i pre; simp [oracleLoop]
  | succ n ih =>
    intro i pre
    rw [oracleLoop, List.range'_succ, List.flatMap_cons, ← List.append_assoc, ← ih (i + 1),
      ofBytes_append, hh]

/-- **C30, exact value**.  For a hash with `len` output bits, the oracle concatenates
the digests of the blocks `1 ‖ x, 2 ‖ x, ...` in this order, reads them as one big-endian
number, keeps its top `BitLength(max) + len` bits, and reduces them modulo `max`. -/
theorem C30_oracle_value (h : Bytes → Bytes) (len : Nat) (hlen : 0 < len)
    (hh : ∀ b, (h b).length * 8 = len) (x : Bytes) (max : BigNum) (hmax : 0 < max)
    (hit : iterCount len max * len < 130048) :
    (oracleBlocks len x max).length = iterCount len max ∧
    BN.bitLength max + len ≤ ((oracleBlocks len x max).flatMap h).length * 8 ∧
    ((oracleBlocks len x max).flatMap h).length * 8 < BN.bitLength max + len + len ∧
    randomOracle h len x max = .ok (BN.ofBytes ((oracleBlocks len x max).flatMap h) /
      2 ^ (((oracleBlocks len x max).flatMap h).length * 8 - (BN.bitLength max + len)) % max) := by
  have hcard : (oracleBlocks len x max).length = iterCount len max := by simp [oracleBlocks]
  have htot : ((oracleBlocks len x max).flatMap h).length * 8 = iterCount len max * len := by
    rw [← hcard]
    induction oracleBlocks len x max with
    | nil => simp
    | cons b t ih =>
      rw [List.flatMap_cons, List.length_append, List.length_cons, Nat.add_mul, ih, hh]; ring
  have h1 := Nat.div_add_mod (BN.bitLength max + len + len - 1) len
  have h2 := Nat.mod_lt (BN.bitLength max + len + len - 1) hlen
  rw [Nat.mul_comm] at h1
  change iterCount len max * len + _ = _ at h1
  have hge : BN.bitLength max + len ≤ iterCount len max * len := by omega
  refine ⟨hcard, by omega, by omega, ?_⟩
  have hblocks : BN.ofBytes ((oracleBlocks len x max).flatMap h) =
      oracleLoop h len x (iterCount len max) 1 0 := by
    have := oracleLoop_eq h len hh x (iterCount len max) 1 []
    rw [show BN.ofBytes [] = 0 from rfl] at this
    rw [this, List.nil_append, oracleBlocks, List.flatMap_map, List.range'_eq_map_range,
      List.flatMap_map]
    simp [Nat.add_comm]
  rw [htot, hblocks]
  simp only [randomOracle, hit, if_true, BN.rshift, BN.mod]
  rw [if_neg (by omega), Res.ok_bind, if_neg (ne_of_gt hmax)]
  have hn : (0 : Int) ≤ oracleLoop h len x (iterCount len max) 1 0 := by
    rw [← hblocks]; exact BN.ofBytes_nonneg _
  rw [Int.tdiv_eq_ediv_of_nonneg hn]
  congr 4
  omega

/-- An 8-bit hash and the bound 300: three blocks, 24 bits, of which the top 17 are
kept. -/
example : oracleBlocks 8 [7] 300 = [[1, 7], [2, 7], [3, 7]] ∧
    randomOracle (fun b => [b.headI * 16 + 1]) 8 [7] 300
      = .ok ((17 * 65536 + 33 * 256 + 49) / 2 ^ 7 % 300) := by decide

/-- **C30, float ceiling**.  context.cc:105 divides in `float`.  For every rounding to
nearest with 24-bit precision (integers below `2^24` exact, relative error `2^-24`) the
ceiling of the rounded quotient is the exact block count of the model, for the three
hash sizes and every output length up to the accepted maximum and beyond it. -/
theorem C30_float_ceiling (rnd : ℚ → ℚ) (hint : ∀ n : ℕ, n ≤ 2 ^ 24 → rnd n = n)
    (herr : ∀ x, 0 ≤ x → |rnd x - x| ≤ x / 2 ^ 24) (len : Nat)
    (hlen : len = 256 ∨ len = 384 ∨ len = 512) (max : BigNum)
    (hb : BN.bitLength max + len ≤ 2 ^ 22) :
    ⌈rnd (rnd ((BN.bitLength max + len : ℕ) : ℚ) / (len : ℚ))⌉ = (iterCount len max : ℤ) := by
  rw [hint _ (by omega)]
  set a := BN.bitLength max + len with ha
  have hlen0 : 0 < len := by omega
  have hl : (0 : ℚ) < len := by exact_mod_cast hlen0
  obtain ⟨n, hn⟩ : ∃ n, n = iterCount len max := ⟨_, rfl⟩
  have h1 := Nat.div_add_mod (a + len - 1) len
  have h2 := Nat.mod_lt (a + len - 1) hlen0
  rw [show (a + len - 1) / len = n by rw [hn, iterCount]] at h1
  rw [← hn]
  have hle : a ≤ len * n := by omega
  have hlt : len * n < a + len := by omega
  rcases hle.lt_or_eq with hlt' | heq
  · have hub : (a : ℚ) / len ≤ 2 ^ 14 := by
      rw [div_le_iff₀ hl]
      have : a ≤ 2 ^ 14 * len := by omega
      exact_mod_cast this
    have he := herr ((a : ℚ) / len) (by positivity)
    have he' : |rnd ((a : ℚ) / len) - (a : ℚ) / len| ≤ 1 / 2 ^ 10 := by
      refine he.trans ?_
      rw [div_le_div_iff₀ (by norm_num) (by norm_num)]
      nlinarith
    have hlo : (n : ℚ) - 1 + 1 / 512 ≤ (a : ℚ) / len := by
      rw [le_div_iff₀ hl]
      have h3 : (len : ℚ) * n + 1 ≤ a + len := by exact_mod_cast hlt
      have h4 : (len : ℚ) ≤ 512 := by
        have : len ≤ 512 := by omega
        exact_mod_cast this
      nlinarith
    have hhi : (a : ℚ) / len ≤ n - 1 / 512 := by
      rw [div_le_iff₀ hl]
      have h3 : (a : ℚ) + 1 ≤ len * n := by exact_mod_cast hlt'
      have h4 : (len : ℚ) ≤ 512 := by
        have : len ≤ 512 := by omega
        exact_mod_cast this
      nlinarith
    rw [abs_le] at he'
    rw [Int.ceil_eq_iff]
    push_cast
    constructor <;> linarith [he'.1, he'.2]
  · have : (a : ℚ) / len = (n : ℕ) := by
      rw [div_eq_iff (ne_of_gt hl), heq]; push_cast; ring
    have hnb : n ≤ 2 ^ 24 := by
      have : n ≤ len * n := Nat.le_mul_of_pos_left _ hlen0
      omega
    rw [this, hint n hnb, Int.ceil_natCast]

/-- The hypotheses on rounding are met, for instance by exact arithmetic; a P-256-sized
bound is in range. -/
example : (∀ n : ℕ, n ≤ 2 ^ 24 → id (n : ℚ) = n) ∧
    (∀ x : ℚ, 0 ≤ x → |id x - x| ≤ x / 2 ^ 24) ∧
    BN.bitLength (2 ^ 256 - 1) + 384 ≤ 2 ^ 22 := by
  refine ⟨fun n _ => rfl, fun x hx => by simp; positivity, ?_⟩
  rw [bitLength_two_pow_sub_one]; norm_num

theorem getLastNBits_nonneg {a : BigNum} (h : 0 ≤ a) (n : Nat) : 0 ≤ BN.getLastNBits a n := by
  rcases h.lt_or_eq with h | h
  · simp only [BN.getLastNBits, Int.sign_eq_one_of_pos h]; positivity
  · simp [BN.getLastNBits, ← h]

/-- **C31**.  Whenever the PRF returns a value it lies in `[0, max)`, whatever HMAC
does and however many rejections it takes; keys under 80 bits and bounds over 512 bits
abort. -/
theorem C31_prf_range (H : Hashes) (key data : Bytes) (max : BigNum) :
    (∀ fuel v, prf H fuel key data max = some (.ok v) → 0 ≤ v ∧ v < max) ∧
    (∀ fuel, key.length * 8 < 80 → prf H (fuel + 1) key data max = some .crash) ∧
    (∀ fuel, 512 < BN.bitLength max → prf H (fuel + 1) key data max = some .crash) ∧
    (∀ fuel r, prf H fuel key data max = some r →
      ¬ key.length * 8 < 80 → ¬ 512 < BN.bitLength max → r.isOk) := by
  refine ⟨fun fuel => ?_, fun fuel h => by simp [prf, h], fun fuel h => ?_, fun fuel => ?_⟩
  · induction fuel generalizing data with
    | zero => intro v h; simp [prf] at h
    | succ n ih =>
      intro v h
      simp only [prf] at h
      split at h
      · simp at h
      · split at h
        · simp at h
        · split at h
          · rename_i hlt
            simp only [Option.some.injEq, Res.ok.injEq] at h
            subst h
            exact ⟨getLastNBits_nonneg (BN.ofBytes_nonneg _) _, hlt⟩
          · exact ih _ v h
  · simp only [prf]
    split
    · rfl
    · rfl
  · induction fuel generalizing data with
    | zero => intro r h; simp [prf] at h
    | succ n ih =>
      intro r h hk hm
      simp only [prf] at h
      simp only [hk, hm, if_false] at h
      split at h
      · simp only [Option.some.injEq] at h
        exact ⟨_, h.symm⟩
      · exact ih _ r h hk hm

/-- More fuel never changes a returned PRF value: the value is determined by the
arguments. -/
theorem C31_prf_deterministic (H : Hashes) (key : Bytes) (max : BigNum) :
    ∀ (fuel k : Nat) (data : Bytes) (r : Res BigNum), prf H fuel key data max = some r →
      prf H (fuel + k) key data max = some r := by
  intro fuel
  induction fuel with
  | zero => intro k data r h; simp [prf] at h
  | succ n ih =>
    intro k data r h
    rw [show n + 1 + k = (n + k) + 1 by omega]
    simp only [prf] at h ⊢
    by_cases hk : key.length * 8 < 80
    · simpa only [hk, if_true] using h
    · by_cases hm : 512 < BN.bitLength max
      · simpa only [hk, hm, if_true, if_false] using h
      · simp only [hk, hm, if_false] at h ⊢
        by_cases hr : BN.getLastNBits (BN.ofBytes (H.hmacSha512 key data)) (BN.bitLength max) < max
        · simpa only [hr, if_true] using h
        · simp only [hr, if_false] at h ⊢
          exact ih k _ r h

/-- A PRF evaluation that rejects once and then returns. -/
example : prf ⟨fun _ => [], fun _ => [], fun _ => [],
    fun _ d => if d = [] then [7] else [2]⟩ 2 (List.replicate 10 0) [] 5 = some (.ok 2) := by
  decide

/-- The successive HMAC inputs of the PRF: the data, then the digest of the previous
input written without leading zero bytes. -/
def prfChain (H : Hashes) (key data : Bytes) : Nat → Bytes
  | 0 => data
  | k + 1 => BN.natToBytes (BN.ofBytes (H.hmacSha512 key (prfChain H key data k))).toNat

theorem prfChain_succ (H : Hashes) (key data : Bytes) (k : Nat) :
    prfChain H key data (k + 1) =
      prfChain H key (BN.natToBytes (BN.ofBytes (H.hmacSha512 key data)).toNat) k := by
  induction k with
  | zero => rfl
  | succ k ih => rw [prfChain, ih, prfChain]

/-- The candidate value of round `k`: the low `BitLength(max)` bits of the digest. -/
def prfCandidate (H : Hashes) (key data : Bytes) (max : BigNum) (k : Nat) : BigNum :=
  BN.ofBytes (H.hmacSha512 key (prfChain H key data k)) % 2 ^ BN.bitLength max

theorem getLastNBits_eq {a : BigNum} (h : 0 ≤ a) (n : Nat) :
    BN.getLastNBits a n = a % 2 ^ n := by
  rcases h.lt_or_eq with h | h
  · simp only [BN.getLastNBits, Int.sign_eq_one_of_pos h]
    conv_rhs => rw [← Int.natAbs_of_nonneg h.le]
    push_cast; ring
  · simp [BN.getLastNBits, ← h]

/-- **C31, exact value**.  With a key of at least 80 bits and a bound of at most 512
bits, the PRF returns `v` exactly when some round's candidate is `v < max` and the
candidates of all earlier rounds were rejected (at least `max`). -/
theorem C31_prf_value (H : Hashes) (key data : Bytes) (max : BigNum)
    (hk : 80 ≤ key.length * 8) (hm : BN.bitLength max ≤ 512) (v : BigNum) :
    (∃ fuel, prf H fuel key data max = some (.ok v)) ↔
    ∃ k, prfCandidate H key data max k = v ∧ v < max ∧
      ∀ j < k, max ≤ prfCandidate H key data max j := by
  have hstep : ∀ data fuel, prf H (fuel + 1) key data max =
      if prfCandidate H key data max 0 < max then
        some (.ok (prfCandidate H key data max 0))
      else prf H fuel key (prfChain H key data 1) max := by
    intro data fuel
    simp only [prf]
    rw [if_neg (by omega), if_neg (by omega), getLastNBits_eq (BN.ofBytes_nonneg _)]
    rfl
  have hnext : ∀ data k, prfCandidate H key data max (k + 1) =
      prfCandidate H key (prfChain H key data 1) max k := by
    intro data k
    simp only [prfCandidate, prfChain_succ]; rfl
  constructor
  · rintro ⟨fuel, h⟩
    induction fuel generalizing data with
    | zero => simp [prf] at h
    | succ n ih =>
      rw [hstep] at h
      split at h
      · rename_i hlt
        simp only [Option.some.injEq, Res.ok.injEq] at h
        exact ⟨0, h, h ▸ hlt, by omega⟩
      · rename_i hge
        obtain ⟨k, h1, h2, h3⟩ := ih _ h
        refine ⟨k + 1, by rw [hnext, h1], h2, fun j hj => ?_⟩
        cases j with
        | zero => omega
        | succ j => rw [hnext]; exact h3 j (by omega)
  · rintro ⟨k, h1, h2, h3⟩
    induction k generalizing data with
    | zero => exact ⟨1, by rw [hstep, if_pos (h1 ▸ h2), h1]⟩
    | succ k ih =>
      obtain ⟨fuel, hf⟩ := ih (prfChain H key data 1) (by rw [← hnext, h1])
        (fun j hj => by rw [← hnext]; exact h3 (j + 1) (by omega))
      refine ⟨fuel + 1, ?_⟩
      have := h3 0 (by omega)
      rw [hstep, if_neg (by omega), hf]

/-- One rejected round (7 mod 8 is not below 5), then 10 mod 8 = 2. -/
example : let H : Hashes := ⟨fun _ => [], fun _ => [], fun _ => [],
      fun _ d => if d = [] then [7] else [10]⟩
    prfChain H (List.replicate 10 0) [] 1 = [7] ∧
    prfCandidate H (List.replicate 10 0) [] 5 0 = 7 ∧
    prfCandidate H (List.replicate 10 0) [] 5 1 = 2 ∧
    prf H 2 (List.replicate 10 0) [] 5 = some (.ok 2) := by decide

/-- **C65**.  Sampling: for every random source (word, list of words, stream of bytes)
the result lies in the documented range; the calls abort exactly on empty ranges. -/
theorem C65_sampling_ranges :
    (∀ w max, 0 < max → ∃ r, randLessThan w max = .ok r ∧ 0 ≤ r ∧ r < max) ∧
    (∀ w max, max ≤ 0 → randLessThan w max = .crash) ∧
    (∀ w a b, a < b → ∃ r, randBetween w a b = .ok r ∧ a ≤ r ∧ r < b) ∧
    (∀ w a b, b ≤ a → randBetween w a b = .crash) ∧
    (∀ ws num r, relPrimeLessThan ws num = some (.ok r) →
      0 ≤ r ∧ r < num ∧ Int.gcd r num = 1) ∧
    (∀ stream n, 0 ≤ n → ∃ bs, randomBytes stream n = .ok bs ∧ (bs.length : Int) = n) := by
  have lt : ∀ w max, 0 < max → ∃ r, randLessThan w max = .ok r ∧ 0 ≤ r ∧ r < max := by
    intro w max h
    refine ⟨_, by simp only [randLessThan]; rw [if_neg (by omega)],
      Int.emod_nonneg _ (ne_of_gt h), Int.emod_lt_of_pos _ h⟩
  refine ⟨lt, fun w max h => by simp [randLessThan, h], fun w a b h => ?_, fun w a b h => ?_,
    fun ws => ?_, fun stream n h => ?_⟩
  · obtain ⟨r, hr, h0, h1⟩ := lt w (b - a) (by omega)
    exact ⟨r + a, by simp [randBetween, h, hr], by omega, by omega⟩
  · simp only [randBetween]; rw [if_neg (by omega)]
  · induction ws with
    | nil => intro num r h; simp [relPrimeLessThan] at h
    | cons w ws ih =>
      intro num r h
      simp only [relPrimeLessThan] at h
      by_cases hn : 0 < num
      · obtain ⟨v, hv, h0, h1⟩ := lt w num hn
        simp only [hv] at h
        split at h
        · exact ih num r h
        · rename_i hg
          simp only [Option.some.injEq, Res.ok.injEq] at h
          subst h
          refine ⟨h0, h1, ?_⟩
          simp only [BN.gcd] at hg
          have : Int.gcd v num ≠ 0 := by
            rw [Ne, Int.gcd_eq_zero_iff]; omega
          omega
      · simp [randLessThan, show num ≤ 0 by omega] at h
  · exact ⟨(List.range n.toNat).map stream, by simp only [randomBytes]; rw [if_neg (by omega)],
      by simp [h]⟩

/-- **C65**.  Every value of the range can be drawn (so the ranges above are exact). -/
theorem C65_sampling_onto (a b v : BigNum) (h1 : a ≤ v) (h2 : v < b) :
    ∃ w, randBetween w a b = .ok v := by
  refine ⟨(v - a).toNat, ?_⟩
  simp only [randBetween, randLessThan]
  rw [if_pos (by omega), if_neg (by omega), Int.toNat_of_nonneg (by omega),
    Int.emod_eq_of_lt (by omega) (by omega)]
  simp

/-- **C65**, private keys: `GeneratePrivateKey` returns a scalar of `[1, order)`. -/
theorem C65_private_key {G : Type} [AddCommGroup G] [DecidableEq G] (E : EcGroup G)
    (h : 1 < E.order) (w : Nat) :
    ∃ k, E.generatePrivateKey w = .ok k ∧ 1 ≤ k ∧ k < E.order := by
  obtain ⟨r, hr, h1, h2⟩ := C65_sampling_ranges.2.2.1 w 1 E.order (by omega)
  exact ⟨r, hr, h1, h2⟩

example : relPrimeLessThan [6, 0, 5] 12 = some (.ok 5) := by decide

end PJC
