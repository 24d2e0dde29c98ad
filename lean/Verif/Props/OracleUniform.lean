import Verif.Props.PyUniform
import Verif.Props.Loops
import Mathlib.Algebra.Order.Ring.Pow
/-
C137: what the random oracles return for different strings is close to independent uniform numbers, and
what the PRF returns is uniform, when the hash function is a random function.

Specification.  `E.card / ∏ i, ps i` is the probability that independent uniform numbers below the bounds
`ps i` are in the set `E`.
-/
namespace PJC.Uniform
open PJC PJC.Prob PJC.Oracle PJC.Ctx Finset

/-- A hash function with `L` bytes of output. -/
def hashOf {L : Nat} (o : Bytes → Fin L → Byte) (b : Bytes) : Bytes := List.ofFn (o b)

/-! ### Probabilities -/

theorem prob_pi {ι : Type} [Fintype ι] [DecidableEq ι] {α : ι → Type} [∀ i, Fintype (α i)]
    (S : ∀ i, α i → Prop) [∀ i, DecidablePred (S i)] :
    prob (fun f : ∀ i, α i => ∀ i, S i (f i)) = ∏ i, prob (S i) := by
  have : (univ.filter fun f : ∀ i, α i => ∀ i, S i (f i)) = Fintype.piFinset fun i => univ.filter (S i) := by
    ext f
    simp
  unfold prob
  rw [this, Fintype.card_piFinset, Fintype.card_pi]
  push_cast
  rw [prod_div_distrib]

/-- An event about one of finitely many results has the sum of their probabilities. -/
theorem prob_sum {α β : Type} [Fintype α] [DecidableEq β] (E : Finset β) (S : β → α → Prop)
    [∀ b, DecidablePred (S b)] [DecidablePred fun a => ∃ b ∈ E, S b a]
    (h : ∀ a b c, S b a → S c a → b = c) : prob (fun a => ∃ b ∈ E, S b a) = ∑ b ∈ E, prob (S b) := by
  classical
  have : (univ.filter fun a => ∃ b ∈ E, S b a) = E.biUnion fun b => univ.filter (S b) := by
    ext a
    simp
  unfold prob
  rw [this, card_biUnion, Nat.cast_sum, sum_div]
  intro b _ c _ hbc
  refine disjoint_left.2 fun a h1 h2 => hbc (h a b c (mem_filter.1 h1).2 (mem_filter.1 h2).2)

/-! ### One value of the oracle -/

theorem value_bij (m L : Nat) : ∀ t < 2 ^ (m * L * 8), ∃ y : Blocks m L, value y = t := by
  let g : Blocks m L → Fin (2 ^ (m * L * 8)) := fun y => ⟨value y, value_lt y⟩
  have hg : Function.Bijective g := by
    rw [Fintype.bijective_iff_injective_and_card]
    exact ⟨fun a b h => value_inj (congrArg Fin.val h), by rw [card_blocks, Fintype.card_fin]⟩
  intro t ht
  obtain ⟨y, hy⟩ := hg.2 ⟨t, ht⟩
  exact ⟨y, congrArg Fin.val hy⟩

/-- One value of the oracle is not much less likely than another. -/
theorem prob_value_ge {m L p e w : Nat} (hp : 0 < p) (hw : m * L * 8 = w + e) {z : Nat} (hz : z < p) :
    (1 : ℚ) / p - 1 / 2 ^ w ≤ prob fun y : Blocks m L => value y / 2 ^ e % p = z := by
  classical
  have hge : 2 ^ e * (2 ^ w / p) ≤ (univ.filter fun y : Blocks m L => value y / 2 ^ e % p = z).card := by
    have hlt : ∀ t : Nat × Nat, t.1 < 2 ^ e → t.2 < 2 ^ w / p →
        (t.2 * p + z) * 2 ^ e + t.1 < 2 ^ (m * L * 8) := by
      intro t h1 h2
      have h3 : t.2 * p + z < 2 ^ w := by
        calc t.2 * p + z < (t.2 + 1) * p := by rw [add_mul, one_mul]; omega
          _ ≤ 2 ^ w / p * p := Nat.mul_le_mul_right _ h2
          _ ≤ 2 ^ w := Nat.div_mul_le_self _ _
      calc (t.2 * p + z) * 2 ^ e + t.1 < (t.2 * p + z + 1) * 2 ^ e := by rw [add_mul _ 1, one_mul]; omega
        _ ≤ 2 ^ w * 2 ^ e := Nat.mul_le_mul_right _ h3
        _ = 2 ^ (m * L * 8) := by rw [hw, pow_add]
    have : (range (2 ^ e) ×ˢ range (2 ^ w / p)).card ≤ _ :=
      card_le_card_of_surjOn (s := univ.filter fun y : Blocks m L => value y / 2 ^ e % p = z)
        (fun y => (value y % 2 ^ e, value y / 2 ^ e / p)) (t := range (2 ^ e) ×ˢ range (2 ^ w / p)) (by
        rintro ⟨r, q⟩ ht
        simp only [coe_product, coe_range, Set.mem_prod, Set.mem_Iio] at ht
        obtain ⟨y, hy⟩ := value_bij m L _ (hlt (r, q) ht.1 ht.2)
        have h1 : value y / 2 ^ e = q * p + z := by
          rw [hy]
          exact Nat.div_eq_of_lt_le (by simp) (by rw [add_mul _ 1, one_mul]; simp; exact ht.1)
        have h2 : value y % 2 ^ e = r := by
          rw [hy, Nat.mul_add_mod', Nat.mod_eq_of_lt ht.1]
        refine ⟨y, ?_, ?_⟩
        · simp only [coe_filter, mem_univ, true_and, Set.mem_ofPred_eq]
          rw [h1, Nat.mul_add_mod', Nat.mod_eq_of_lt hz]
        · simp only [h1, h2, Prod.mk.injEq, true_and]
          rw [Nat.mul_comm, Nat.mul_add_div hp, Nat.div_eq_of_lt hz, add_zero])
    rwa [card_product, card_range, card_range] at this
  unfold prob
  rw [card_blocks, hw]
  have hp' : (p : ℚ) ≠ 0 := by positivity
  have h1 : (2 : ℚ) ^ w / p - 1 ≤ ((2 ^ w / p : Nat) : ℚ) := by
    have : 2 ^ w < (2 ^ w / p + 1) * p := Nat.lt_mul_of_div_lt (Nat.lt_succ_self _) hp |>.trans_eq (by rw [Nat.succ_eq_add_one])
    have h2 : (2 : ℚ) ^ w < ((2 ^ w / p : Nat) + 1) * p := by exact_mod_cast this
    rw [sub_le_iff_le_add, div_le_iff₀ (by positivity)]
    exact h2.le
  have h3 : (2 : ℚ) ^ e * ((2 ^ w / p : Nat) : ℚ) ≤
      ((univ.filter fun y : Blocks m L => value y / 2 ^ e % p = z).card : ℚ) := by exact_mod_cast hge
  rw [le_div_iff₀ (by positivity)]
  refine le_trans ?_ (le_trans (mul_le_mul_of_nonneg_left h1 (by positivity)) h3)
  push_cast
  rw [pow_add]
  apply le_of_eq
  field_simp

/-- The values of the blocks for `x` and the bound `p`. -/
abbrev BlocksFor (L p : Nat) : Type := Blocks (iterCount (8 * L) p) L

/-- What the oracle makes of them. -/
def out {L : Nat} (p : Nat) (y : BlocksFor L p) : Nat :=
  value y / 2 ^ (iterCount (8 * L) p * L * 8 - (BN.bitLength p + 8 * L)) % p

theorem bits_le {L : Nat} (hL : 0 < L) (p : Nat) : BN.bitLength p + 8 * L ≤ iterCount (8 * L) p * L * 8 := by
  have h := Nat.div_add_mod (BN.bitLength p + 8 * L + 8 * L - 1) (8 * L)
  have h2 := Nat.mod_lt (BN.bitLength p + 8 * L + 8 * L - 1) (show 0 < 8 * L by omega)
  have e : iterCount (8 * L) p * L * 8 = 8 * L * ((BN.bitLength p + 8 * L + 8 * L - 1) / (8 * L)) := by
    unfold iterCount
    ring
  omega

theorem oracle_out {L : Nat} (hL : 0 < L) (o : Bytes → Fin L → Byte) (x : Bytes) {p : Nat} (hp : 0 < p)
    (hlim : iterCount (8 * L) p * (8 * L) < 130048) :
    randomOracle (hashOf o) (8 * L) x p =
      .ok ((out p fun j : Fin (iterCount (8 * L) p) => o (oracleInput (j + 1) x) : Nat) : Int) := by
  obtain ⟨-, -, -, h⟩ := C30_oracle_value (hashOf o) (8 * L) (by omega)
    (fun b => by rw [hashOf, List.length_ofFn]; ring) x p (by omega) hlim
  have e : (oracleBlocks (8 * L) x p).flatMap (hashOf o) =
      cat fun j : Fin (iterCount (8 * L) p) => o (oracleInput (j + 1) x) := by
    rw [List.flatMap_def, cat]
    congr 1
    apply List.ext_getElem
    · simp [oracleBlocks]
    · intro i h1 h2
      simp [oracleBlocks, hashOf]
  rw [h, e, cat_length, ← value_cast, out]
  push_cast
  rfl

theorem prob_out {L : Nat} (hL : 0 < L) {p : Nat} (hp : 0 < p) {z : Nat} (hz : z < p) :
    (1 - 1 / 2 ^ (8 * L)) / p ≤ prob (fun y : BlocksFor L p => out p y = z) ∧
      prob (fun y : BlocksFor L p => out p y = z) ≤ (1 + 1 / 2 ^ (8 * L)) / p := by
  have hw : iterCount (8 * L) p * L * 8 = BN.bitLength p + 8 * L +
      (iterCount (8 * L) p * L * 8 - (BN.bitLength p + 8 * L)) := by
    have := bits_le hL p
    omega
  have h1 := prob_value_ge (m := iterCount (8 * L) p) (L := L) hp hw hz
  have h2 := prob_value (m := iterCount (8 * L) p) (L := L) hp hw z
    (fun y => value y / 2 ^ (iterCount (8 * L) p * L * 8 - (BN.bitLength p + 8 * L)) % p = z) fun _ h => h
  have hlt : p < 2 ^ BN.bitLength (p : Int) := Loops.bitLength_lt p
  have hb : (1 : ℚ) / 2 ^ (BN.bitLength (p : Int) + 8 * L) ≤ 1 / 2 ^ (8 * L) / p := by
    rw [div_div]
    apply one_div_le_one_div_of_le (by positivity)
    rw [pow_add, mul_comm]
    have : (p : ℚ) ≤ 2 ^ BN.bitLength (p : Int) := by exact_mod_cast hlt.le
    gcongr
  constructor
  · refine le_trans ?_ h1
    rw [sub_div]
    linarith only [hb]
  · refine le_trans h2 ?_
    rw [add_div]
    linarith only [hb]

section
variable {L n : Nat} (hL : 0 < L) (xs : Fin n → Bytes) (hx : Function.Injective xs) (ps : Fin n → Nat)
  (hp : ∀ i, 0 < ps i) (hm : ∀ i, iterCount (8 * L) (ps i) ≤ 255)
  (hlim : ∀ i, iterCount (8 * L) (ps i) * (8 * L) < 130048) (B : Bytes → Fin L → Byte) (D : Finset Bytes)
  (hD : ∀ i, ∀ b ∈ oracleBlocks (8 * L) (xs i) (ps i), b ∈ D)
include hL hx hp hm hlim hD

open scoped Classical in
theorem prob_joint (z : ∀ i, Fin (ps i)) :
    prob (fun f : D → Fin L → Byte =>
      ∀ i, randomOracle (hashOf (graft B D f)) (8 * L) (xs i) (ps i) = .ok ((z i : Nat) : Int)) =
    ∏ i, prob fun y : BlocksFor L (ps i) => out (ps i) y = z i := by
  have mem : ∀ i (j : Fin (iterCount (8 * L) (ps i))), oracleInput (j + 1) (xs i) ∈ D := fun i j =>
    hD i _ (List.mem_map.2 ⟨j, List.mem_range.2 j.isLt, rfl⟩)
  let pt : (Σ i : Fin n, Fin (iterCount (8 * L) (ps i))) → D := fun t => ⟨_, mem t.1 t.2⟩
  have hpt : Function.Injective pt := by
    rintro ⟨i, j⟩ ⟨i', j'⟩ h
    have h1 := hm i
    have h2 := hm i'
    have h3 := j.isLt
    have h4 := j'.isLt
    obtain ⟨e1, e2⟩ := C30_distinct_blocks.1 (j + 1) (j' + 1) (xs i) (xs i') (by omega) (by omega)
      (by omega) (by omega) (congrArg Subtype.val h)
    obtain rfl := hx e2
    obtain rfl := Fin.ext (Nat.succ.inj e1)
    rfl
  have e : ∀ f : D → Fin L → Byte,
      (∀ i, randomOracle (hashOf (graft B D f)) (8 * L) (xs i) (ps i) = .ok ((z i : Nat) : Int)) ↔
      ∀ i, out (ps i) (fun j => f (pt ⟨i, j⟩)) = z i := by
    intro f
    apply forall_congr'
    intro i
    rw [oracle_out hL _ _ (hp i) (hlim i)]
    have : (fun j : Fin (iterCount (8 * L) (ps i)) => graft B D f (oracleInput (j + 1) (xs i))) =
        fun j => f (pt ⟨i, j⟩) := by
      funext j
      rw [graft_mem B (mem i j)]
    rw [this]
    constructor
    · intro h
      have := Res.ok.inj h
      exact_mod_cast this
    · intro h
      rw [h]
  rw [prob_congr e, ← prob_pi]
  have h1 := Py.Prng.prob_points (Y := Fin L → Byte) pt hpt fun g => ∀ i, out (ps i) (fun j => g ⟨i, j⟩) = z i
  have h2 := prob_equiv (Equiv.piCurry (α := Fin n) (β := fun i => Fin (iterCount (8 * L) (ps i)))
    fun _ _ => Fin L → Byte) fun g : ∀ i, BlocksFor L (ps i) => ∀ i, out (ps i) (g i) = z i
  refine Eq.trans ?_ (h1.trans (Eq.trans ?_ (h2.trans ?_)))
  · convert rfl
  · convert rfl
    rfl
  · convert rfl

open scoped Classical in
/-- **C137**.  For different strings, and a random hash function, any numbers below the bounds are what
the oracle returns with nearly the probability of independent uniform numbers. -/
theorem C137_values (z : ∀ i, Fin (ps i)) :
    (1 - 1 / 2 ^ (8 * L)) ^ n / ∏ i, (ps i : ℚ) ≤ prob (fun f : D → Fin L → Byte =>
        ∀ i, randomOracle (hashOf (graft B D f)) (8 * L) (xs i) (ps i) = .ok ((z i : Nat) : Int)) ∧
      prob (fun f : D → Fin L → Byte =>
        ∀ i, randomOracle (hashOf (graft B D f)) (8 * L) (xs i) (ps i) = .ok ((z i : Nat) : Int)) ≤
        (1 + 1 / 2 ^ (8 * L)) ^ n / ∏ i, (ps i : ℚ) := by
  rw [prob_joint hL xs hx ps hp hm hlim B D hD]
  have h0 : (0 : ℚ) ≤ 1 - 1 / 2 ^ (8 * L) := by
    rw [sub_nonneg, ← one_div_pow]
    exact pow_le_one₀ (by norm_num) (by norm_num)
  have e : ∀ c : ℚ, c ^ n / ∏ i, (ps i : ℚ) = ∏ i, c / (ps i : ℚ) := by
    intro c
    rw [prod_div_distrib, prod_const, card_univ, Fintype.card_fin]
  rw [e, e]
  constructor
  · exact prod_le_prod (fun i _ => div_nonneg h0 (by positivity)) fun i _ => (prob_out hL (hp i) (z i).isLt).1
  · exact prod_le_prod (fun i _ => prob_nonneg _) fun i _ => (prob_out hL (hp i) (z i).isLt).2

open scoped Classical in
/-- **C137**.  No set of results tells what the oracle returns for different strings from independent
uniform numbers with an advantage above `(1 + 2 ^ -len) ^ n - 1`. -/
theorem C137_events (E : Finset (∀ i, Fin (ps i))) :
    |prob (fun f : D → Fin L → Byte => ∃ z ∈ E,
        ∀ i, randomOracle (hashOf (graft B D f)) (8 * L) (xs i) (ps i) = .ok ((z i : Nat) : Int)) -
      E.card / ∏ i, (ps i : ℚ)| ≤ (1 + 1 / 2 ^ (8 * L)) ^ n - 1 := by
  obtain ⟨d, hd⟩ : ∃ d : ℚ, d = 1 / 2 ^ (8 * L) := ⟨_, rfl⟩
  have hd0 : 0 ≤ d := by rw [hd]; positivity
  have hd1 : d ≤ 1 := by
    rw [hd, ← one_div_pow]
    exact pow_le_one₀ (by norm_num) (by norm_num)
  have hv := C137_values hL xs hx ps hp hm hlim B D hD
  rw [prob_sum E (fun z (f : D → Fin L → Byte) =>
    ∀ i, randomOracle (hashOf (graft B D f)) (8 * L) (xs i) (ps i) = .ok ((z i : Nat) : Int))]
  · rw [← hd] at hv ⊢
    have hP : (0 : ℚ) < ∏ i, (ps i : ℚ) := prod_pos fun i _ => by exact_mod_cast hp i
    have h1 : (1 : ℚ) - (1 - d) ^ n ≤ (1 + d) ^ n - 1 := by
      have b1 := one_add_mul_le_pow (a := d) (by linarith) n
      have b2 := one_add_mul_le_pow (a := -d) (by linarith) n
      rw [← sub_eq_add_neg] at b2
      nlinarith only [b1, b2]
    have key : ∀ z : ∀ i, Fin (ps i), |prob (fun f : D → Fin L → Byte =>
        ∀ i, randomOracle (hashOf (graft B D f)) (8 * L) (xs i) (ps i) = .ok ((z i : Nat) : Int)) -
        1 / ∏ i, (ps i : ℚ)| ≤ ((1 + d) ^ n - 1) / ∏ i, (ps i : ℚ) := by
      intro z
      obtain ⟨l, u⟩ := hv z
      rw [abs_le]
      constructor
      · have : (1 - d) ^ n / ∏ i, (ps i : ℚ) = 1 / ∏ i, (ps i : ℚ) - (1 - (1 - d) ^ n) / ∏ i, (ps i : ℚ) := by
          ring
        rw [this] at l
        have := div_le_div_of_nonneg_right h1 hP.le
        linarith only [l, this]
      · have : (1 + d) ^ n / ∏ i, (ps i : ℚ) = 1 / ∏ i, (ps i : ℚ) + ((1 + d) ^ n - 1) / ∏ i, (ps i : ℚ) := by
          ring
        rw [this] at u
        linarith only [u]
    have hE : (E.card : ℚ) ≤ ∏ i, (ps i : ℚ) := by
      have := card_le_univ E
      rw [Fintype.card_pi] at this
      simp only [Fintype.card_fin] at this
      exact_mod_cast this
    have e2 : (E.card : ℚ) / ∏ i, (ps i : ℚ) = ∑ z ∈ E, 1 / ∏ i, (ps i : ℚ) := by
      rw [sum_const, nsmul_eq_mul]; ring
    rw [e2, ← sum_sub_distrib]
    refine (abs_sum_le_sum_abs _ _).trans ((sum_le_sum fun z _ => key z).trans ?_)
    rw [sum_const, nsmul_eq_mul, mul_div_assoc', div_le_iff₀ hP, mul_comm]
    apply mul_le_mul_of_nonneg_left hE
    have b1 := one_add_mul_le_pow (a := d) (by linarith) n
    have : 0 ≤ (n : ℚ) * d := by positivity
    linarith only [b1, this]
  · intro f z z' h h'
    funext i
    have := (h i).symm.trans (h' i)
    have := Res.ok.inj this
    exact Fin.ext (by exact_mod_cast this)
end

open scoped Classical in
/-- **C137** for `RandomOracleSha256`. -/
theorem C137_sha256 (H : Hashes) {n : Nat} (xs : Fin n → Bytes) (hx : Function.Injective xs) (ps : Fin n → Nat)
    (hp : ∀ i, 0 < ps i) (hm : ∀ i, iterCount 256 (ps i) ≤ 255)
    (hlim : ∀ i, iterCount 256 (ps i) * 256 < 130048) (B : Bytes → Fin 32 → Byte) (D : Finset Bytes)
    (hD : ∀ i, ∀ b ∈ oracleBlocks 256 (xs i) (ps i), b ∈ D) (E : Finset (∀ i, Fin (ps i))) :
    |prob (fun f : D → Fin 32 → Byte => ∃ z ∈ E, ∀ i,
        randomOracleSha256 { H with sha256 := hashOf (graft B D f) } (xs i) (ps i) =
          .ok ((z i : Nat) : Int)) -
      E.card / ∏ i, (ps i : ℚ)| ≤ (1 + 1 / 2 ^ 256) ^ n - 1 :=
  C137_events (L := 32) (by norm_num) xs hx ps hp hm hlim B D hD E

open scoped Classical in
/-- **C137** for `RandomOracleSha384`. -/
theorem C137_sha384 (H : Hashes) {n : Nat} (xs : Fin n → Bytes) (hx : Function.Injective xs) (ps : Fin n → Nat)
    (hp : ∀ i, 0 < ps i) (hm : ∀ i, iterCount 384 (ps i) ≤ 255)
    (hlim : ∀ i, iterCount 384 (ps i) * 384 < 130048) (B : Bytes → Fin 48 → Byte) (D : Finset Bytes)
    (hD : ∀ i, ∀ b ∈ oracleBlocks 384 (xs i) (ps i), b ∈ D) (E : Finset (∀ i, Fin (ps i))) :
    |prob (fun f : D → Fin 48 → Byte => ∃ z ∈ E, ∀ i,
        randomOracleSha384 { H with sha384 := hashOf (graft B D f) } (xs i) (ps i) =
          .ok ((z i : Nat) : Int)) -
      E.card / ∏ i, (ps i : ℚ)| ≤ (1 + 1 / 2 ^ 384) ^ n - 1 :=
  C137_events (L := 48) (by norm_num) xs hx ps hp hm hlim B D hD E

open scoped Classical in
/-- **C137** for `RandomOracleSha512`. -/
theorem C137_sha512 (H : Hashes) {n : Nat} (xs : Fin n → Bytes) (hx : Function.Injective xs) (ps : Fin n → Nat)
    (hp : ∀ i, 0 < ps i) (hm : ∀ i, iterCount 512 (ps i) ≤ 255)
    (hlim : ∀ i, iterCount 512 (ps i) * 512 < 130048) (B : Bytes → Fin 64 → Byte) (D : Finset Bytes)
    (hD : ∀ i, ∀ b ∈ oracleBlocks 512 (xs i) (ps i), b ∈ D) (E : Finset (∀ i, Fin (ps i))) :
    |prob (fun f : D → Fin 64 → Byte => ∃ z ∈ E, ∀ i,
        randomOracleSha512 { H with sha512 := hashOf (graft B D f) } (xs i) (ps i) =
          .ok ((z i : Nat) : Int)) -
      E.card / ∏ i, (ps i : ℚ)| ≤ (1 + 1 / 2 ^ 512) ^ n - 1 :=
  C137_events (L := 64) (by norm_num) xs hx ps hp hm hlim B D hD E

/-! ### The PRF -/

/-- A permutation of the digests that exchanges the last bits `v` and `v'` and keeps digests with other
last bits. -/
theorem exists_swap {b : Nat} (hb : b ≤ 512) {v v' : Nat} (hv : v < 2 ^ b) (hv' : v' < 2 ^ b) :
    ∃ σ : Digest ≃ Digest, (∀ d, num d % 2 ^ b = v → num (σ d) % 2 ^ b = v') ∧
      (∀ d, num d % 2 ^ b = v' → num (σ d) % 2 ^ b = v) ∧
      ∀ d, num d % 2 ^ b ≠ v → num d % 2 ^ b ≠ v' → σ d = d := by
  obtain ⟨K, hK⟩ : ∃ K, K = 512 := ⟨_, rfl⟩
  rw [← hK] at hb
  have e1 : 2 ^ K = 2 ^ (K - b) * 2 ^ b := by rw [← pow_add]; congr 1; omega
  let g : Digest → Fin (2 ^ (K - b) * 2 ^ b) := fun d => ⟨num d, e1 ▸ num_lt d hK⟩
  have hg : Function.Bijective g := by
    rw [Fintype.bijective_iff_injective_and_card]
    exact ⟨fun a c h => num_inj (congrArg Fin.val h), by rw [card_digest hK, Fintype.card_fin, e1]⟩
  let G : Digest ≃ Fin (2 ^ (K - b)) × Fin (2 ^ b) := (Equiv.ofBijective g hg).trans finProdFinEquiv.symm
  have hG : ∀ d, ((G d).2 : Nat) = num d % 2 ^ b := fun d => rfl
  let s : Fin (2 ^ (K - b)) × Fin (2 ^ b) ≃ Fin (2 ^ (K - b)) × Fin (2 ^ b) :=
    Equiv.prodCongr (Equiv.refl _) (Equiv.swap ⟨v, hv⟩ ⟨v', hv'⟩)
  let σ : Digest ≃ Digest := (G.trans s).trans G.symm
  have hσ : ∀ d, num (σ d) % 2 ^ b = (Equiv.swap (⟨v, hv⟩ : Fin (2 ^ b)) ⟨v', hv'⟩ (G d).2 : Fin _) := by
    intro d
    rw [← hG]
    show ((G (G.symm (s (G d)))).2 : Nat) = _
    rw [Equiv.apply_symm_apply]
    rfl
  refine ⟨σ, fun d h => ?_, fun d h => ?_, fun d h h' => ?_⟩
  · rw [hσ, show (G d).2 = ⟨v, hv⟩ from Fin.ext ((hG d).trans h), Equiv.swap_apply_left]
  · rw [hσ, show (G d).2 = ⟨v', hv'⟩ from Fin.ext ((hG d).trans h), Equiv.swap_apply_right]
  · apply G.injective
    show G (G.symm (s (G d))) = G d
    rw [Equiv.apply_symm_apply]
    refine Prod.ext rfl ?_
    show Equiv.swap _ _ (G d).2 = (G d).2
    rw [Equiv.swap_apply_of_ne_of_ne]
    · exact fun e => h ((hG d).symm.trans (congrArg Fin.val e))
    · exact fun e => h' ((hG d).symm.trans (congrArg Fin.val e))

theorem prf_step {H : Hashes} {key : Bytes} {o : Bytes → Digest} {max : Nat} (hk : 10 ≤ key.length)
    (hb : BN.bitLength (max : Int) ≤ 512) (k : Nat) (data : Bytes) :
    prf (Loops.withHmac H key o) (k + 1) key data max =
      if num (o data) % 2 ^ BN.bitLength (max : Int) < max then
        some (.ok ((num (o data) % 2 ^ BN.bitLength (max : Int) : Nat) : Int))
      else prf (Loops.withHmac H key o) k key (BN.natToBytes (num (o data))) max := by
  rw [prf, if_neg (by omega), if_neg (by omega)]
  have e : (Loops.withHmac H key o).hmacSha512 key data = List.ofFn (o data) := by simp [Loops.withHmac]
  simp only [e, ← num_cast, Loops.last_num, Int.toNat_natCast]
  by_cases hlt : num (o data) % 2 ^ BN.bitLength (max : Int) < max
  · rw [if_pos (by exact_mod_cast hlt), if_pos hlt]
  · rw [if_neg (by exact_mod_cast hlt), if_neg hlt]

theorem prf_swap {H : Hashes} {key : Bytes} {max : Nat} (hk : 10 ≤ key.length)
    (hb : BN.bitLength (max : Int) ≤ 512) (B : Bytes → Digest) (D : Finset Bytes)
    (hD : ∀ v < 2 ^ 512, BN.natToBytes v ∈ D) {v v' : Nat} (hv : v < max) (hv' : v' < max) (σ : Digest ≃ Digest)
    (h1 : ∀ d, num d % 2 ^ BN.bitLength (max : Int) = v → num (σ d) % 2 ^ BN.bitLength (max : Int) = v')
    (h2 : ∀ d, num d % 2 ^ BN.bitLength (max : Int) = v' → num (σ d) % 2 ^ BN.bitLength (max : Int) = v)
    (h3 : ∀ d, num d % 2 ^ BN.bitLength (max : Int) ≠ v → num d % 2 ^ BN.bitLength (max : Int) ≠ v' → σ d = d)
    (f : D → Digest) : ∀ (k : Nat) (data : Bytes), data ∈ D →
    (prf (Loops.withHmac H key (graft B D fun d => σ (f d))) k key data max = some (.ok (v' : Int)) ↔
      prf (Loops.withHmac H key (graft B D f)) k key data max = some (.ok (v : Int)))
  | 0, _, _ => by simp [prf]
  | k + 1, data, hd => by
    rw [prf_step hk hb, prf_step hk hb, graft_mem B hd, graft_mem B hd]
    by_cases c1 : num (f ⟨data, hd⟩) % 2 ^ BN.bitLength (max : Int) = v
    · rw [h1 _ c1, c1, if_pos hv, if_pos hv']
      simp
    by_cases c2 : num (f ⟨data, hd⟩) % 2 ^ BN.bitLength (max : Int) = v'
    · rw [h2 _ c2, c2, if_pos hv, if_pos hv']
      simp only [Option.some.injEq, Res.ok.injEq]
      exact eq_comm
    rw [h3 _ c1 c2]
    split
    · simp only [Option.some.injEq, Res.ok.injEq, Nat.cast_inj]
      exact ⟨fun h => absurd h c2, fun h => absurd h c1⟩
    · exact prf_swap hk hb B D hD hv hv' σ h1 h2 h3 f k _ (hD _ (num_lt _ rfl))

theorem prf_returns {H : Hashes} {key : Bytes} {o : Bytes → Digest} {max : Nat} (hk : 10 ≤ key.length)
    (hb : BN.bitLength (max : Int) ≤ 512) : ∀ (k : Nat) (data : Bytes),
    prf (Loops.withHmac H key o) k key data max ≠ none ↔
      ∃ v ∈ range max, prf (Loops.withHmac H key o) k key data max = some (.ok ((v : Nat) : Int))
  | 0, _ => by simp [prf]
  | k + 1, data => by
    rw [prf_step hk hb]
    split
    · next h => exact ⟨fun _ => ⟨_, mem_range.2 h, rfl⟩, fun _ => by simp⟩
    · exact prf_returns hk hb k _

open scoped Classical in
/-- **C137**.  When HMAC under the key is a random function, the result of the PRF is uniform: within `k`
calls of itself it returns each number below the bound with the same probability, which is `1 / max` but
for the probability that it has not yet returned (C126 bounds it). -/
theorem C137_prf (H : Hashes) (key data : Bytes) (hk : 10 ≤ key.length) (max : Nat)
    (hb : BN.bitLength (max : Int) ≤ 512) (B : Bytes → Digest) (D : Finset Bytes) (hd : data ∈ D)
    (hD : ∀ v < 2 ^ 512, BN.natToBytes v ∈ D) (k v : Nat) (hv : v < max) :
    prob (fun f : D → Digest =>
        prf (Loops.withHmac H key (graft B D f)) k key data max = some (.ok (v : Int))) =
      (1 - prob fun f : D → Digest => prf (Loops.withHmac H key (graft B D f)) k key data max = none) / max := by
  have heq : ∀ v' < max, prob (fun f : D → Digest =>
      prf (Loops.withHmac H key (graft B D f)) k key data max = some (.ok (v' : Int))) =
      prob fun f : D → Digest =>
        prf (Loops.withHmac H key (graft B D f)) k key data max = some (.ok (v : Int)) := by
    intro v' hv'
    have hlt := Loops.bitLength_lt max
    obtain ⟨σ, h1, h2, h3⟩ := exists_swap hb (hv.trans hlt) (hv'.trans hlt)
    rw [← prob_equiv (Equiv.arrowCongr (Equiv.refl D) σ)]
    exact prob_congr fun f => prf_swap hk hb B D hD hv hv' σ h1 h2 h3 f k data hd
  have hsum : prob (fun f : D → Digest => prf (Loops.withHmac H key (graft B D f)) k key data max ≠ none) =
      ∑ v' ∈ range max, prob fun f : D → Digest =>
        prf (Loops.withHmac H key (graft B D f)) k key data max = some (.ok ((v' : Nat) : Int)) := by
    rw [prob_congr fun f => prf_returns hk hb k data]
    exact prob_sum (range max) (fun (v' : Nat) (f : D → Digest) =>
      prf (Loops.withHmac H key (graft B D f)) k key data max = some (.ok (v' : Int)))
      fun f a c h1 h2 => by
        have := h1.symm.trans h2
        simpa using this
  rw [sum_congr rfl fun v' h => heq v' (mem_range.1 h), sum_const, card_range, nsmul_eq_mul] at hsum
  have hone := Py.Prng.prob_or_disjoint
    (fun f : D → Digest => prf (Loops.withHmac H key (graft B D f)) k key data max = none)
    (fun f => prf (Loops.withHmac H key (graft B D f)) k key data max ≠ none) fun f h h' => h' h
  have h4 : prob (fun f : D → Digest => prf (Loops.withHmac H key (graft B D f)) k key data max = none ∨
      prf (Loops.withHmac H key (graft B D f)) k key data max ≠ none) = 1 := by
    unfold prob
    rw [filter_true_of_mem fun f _ => em _, card_univ, div_self]
    exact_mod_cast Fintype.card_ne_zero
  rw [h4, hsum] at hone
  have hm : (0 : ℚ) < max := by exact_mod_cast (Nat.zero_lt_of_lt hv)
  rw [eq_div_iff hm.ne', hone]
  ring

/-! ### Cases -/

/-- Two strings, SHA-512 and the order of a group of 256 bits: what the oracle returns is within
`2^-510` of independent uniform numbers. -/
theorem C137_reached : Function.Injective ![([] : Bytes), [1, 2, 3]] ∧
    iterCount (8 * 64) ((2 ^ 256 - 189 : Nat) : Int) = 2 ∧
    (∀ i, ∀ b ∈ oracleBlocks (8 * 64) (![([] : Bytes), [1, 2, 3]] i) ((2 ^ 256 - 189 : Nat) : Int),
      b ∈ (univ.biUnion fun i : Fin 2 =>
        (oracleBlocks (8 * 64) (![([] : Bytes), [1, 2, 3]] i) ((2 ^ 256 - 189 : Nat) : Int)).toFinset)) ∧
    ((1 + 1 / 2 ^ (8 * 64)) ^ 2 - 1 : ℚ) ≤ 1 / 2 ^ 510 := by
  refine ⟨by decide, by decide +kernel, fun i b h => mem_biUnion.2 ⟨i, mem_univ _, List.mem_toFinset.2 h⟩, ?_⟩
  have e : ((2 : ℚ) ^ (8 * 64)) = 4 * 2 ^ 510 := by rw [show 8 * 64 = 510 + 2 from rfl, pow_add, mul_comm]; norm_num
  have h : (1 : ℚ) ≤ 2 ^ 510 := one_le_pow₀ (by norm_num)
  rw [e]
  generalize (2 : ℚ) ^ 510 = t at h
  have ht : 0 < t := by linarith
  rw [show (1 + 1 / (4 * t)) ^ 2 - 1 = (1 / 2 + 1 / (16 * t)) * (1 / t) by field_simp; ring]
  have : 1 / (16 * t) ≤ 1 / 2 := by
    rw [div_le_div_iff₀ (by positivity) (by norm_num)]; linarith
  have h1 : 0 ≤ 1 / t := by positivity
  nlinarith

/-- The hypotheses of `C137_prf` hold for a key of 16 bytes and the bound 1000. -/
theorem C137_prf_reached : ∃ D : Finset Bytes, [1, 2] ∈ D ∧ (∀ v < 2 ^ 512, BN.natToBytes v ∈ D) ∧
    10 ≤ (List.replicate 16 (7 : Byte)).length ∧ BN.bitLength ((1000 : Nat) : Int) ≤ 512 :=
  ⟨insert [1, 2] ((range (2 ^ 512)).image BN.natToBytes), mem_insert_self _ _,
    fun _ hv => mem_insert_of_mem (mem_image_of_mem _ (mem_range.2 hv)), by simp, by decide⟩

end PJC.Uniform
