import Verif.Lemmas.RandomOracle
import Verif.Props.Transcript
/-
The random oracle `RandomOracle(x, p)` for a random hash function: how often a value comes up.
-/
namespace PJC.Oracle
open Finset PJC.Prob

/-- The `m` hash values of `L` bytes that are computed for one string. -/
abbrev Blocks (m L : Nat) : Type := Fin m → Fin L → Byte

/-- The hash function whose value at `i`, `x` is the `i`-th block for `x` (elsewhere `B`). -/
def blockHash {m L : Nat} (B : Bytes → Bytes) (o : Bytes → Blocks m L) : Bytes → Bytes
  | [] => B []
  | i :: x => if h : 1 ≤ i.val ∧ i.val ≤ m then List.ofFn (o x ⟨i.val - 1, by omega⟩) else B (i :: x)

/-- The blocks one after the other. -/
def cat {m L : Nat} (y : Blocks m L) : Bytes := (List.ofFn fun i => List.ofFn (y i)).flatten

theorem cat_length {m L : Nat} (y : Blocks m L) : (cat y).length = m * L := by
  simp [cat, List.length_flatten, List.map_ofFn, Function.comp_def]

theorem cat_inj {m L : Nat} {y y' : Blocks m L} (h : cat y = cat y') : y = y' := by
  have := Ped.flatten_inj_of_lengths (a := List.ofFn fun i => List.ofFn (y i))
    (b := List.ofFn fun i => List.ofFn (y' i)) (by simp [List.map_ofFn, Function.comp_def]) h
  have := List.ofFn_injective this
  funext i
  exact List.ofFn_injective (congrFun this i)

/-- The number the blocks are read as. -/
def value {m L : Nat} (y : Blocks m L) : Nat := (BN.ofBytes (cat y)).toNat

theorem value_cast {m L : Nat} (y : Blocks m L) : (value y : Int) = BN.ofBytes (cat y) :=
  Int.toNat_of_nonneg (BN.ofBytes_nonneg _)

theorem value_inj {m L : Nat} {y y' : Blocks m L} (h : value y = value y') : y = y' := by
  have h1 := Py.Prng.eq_beBytes (value_cast y).symm
  have h2 := Py.Prng.eq_beBytes (value_cast y').symm
  rw [cat_length] at h1 h2
  rw [h, ← h2] at h1
  exact cat_inj h1

theorem value_lt {m L : Nat} (y : Blocks m L) : value y < 2 ^ (m * L * 8) := by
  have := BN.ofBytes_lt (cat y)
  rw [← value_cast, cat_length] at this
  have e : (256 : Int) ^ (m * L) = ((2 ^ (m * L * 8) : Nat) : Int) := by
    push_cast
    rw [mul_comm (m * L) 8, pow_mul 2 8]
    norm_num
  rw [e] at this
  exact_mod_cast this

theorem card_blocks (m L : Nat) : Fintype.card (Blocks m L) = 2 ^ (m * L * 8) := by
  simp only [Blocks, Fintype.card_fun, Fintype.card_fin]
  rw [← pow_mul, mul_comm (m * L) 8, pow_mul 2 8, mul_comm L m]
  norm_num

theorem ofBytes_append (a b : Bytes) :
    BN.ofBytes (a ++ b) = BN.ofBytes a * 256 ^ b.length + BN.ofBytes b := by
  induction b using List.reverseRecOn with
  | nil => simp [BN.ofBytes]
  | append_singleton b x ih =>
    have e : ∀ (l : Bytes), BN.ofBytes (l ++ [x]) = BN.ofBytes l * 256 + x.val := by
      intro l
      simp [BN.ofBytes]
    rw [← List.append_assoc, e, e, ih, List.length_append, List.length_singleton, pow_succ]
    ring

theorem oracleLoop_eq (h : Bytes → Bytes) (L : Nat) (x : Bytes) : ∀ (n i : Nat) (acc : Int),
    (∀ j, i ≤ j → j < i + n → (h (Ctx.oracleInput j x)).length = L) →
    Ctx.oracleLoop h (8 * L) x n i acc =
      acc * 256 ^ (n * L) + BN.ofBytes ((List.range' i n).map fun j => h (Ctx.oracleInput j x)).flatten
  | 0, i, acc, _ => by simp [Ctx.oracleLoop, BN.ofBytes]
  | n + 1, i, acc, hl => by
    have hlen : ∀ (n i : Nat), (∀ j, i ≤ j → j < i + n → (h (Ctx.oracleInput j x)).length = L) →
        (((List.range' i n).map fun j => h (Ctx.oracleInput j x)).flatten).length = n * L := by
      intro n
      induction n with
      | zero => simp
      | succ n ih =>
        intro i hl
        rw [List.range'_succ, List.map_cons, List.flatten_cons, List.length_append,
          hl i le_rfl (by omega), ih (i + 1) fun j h1 h2 => hl j (by omega) (by omega)]
        ring
    rw [Ctx.oracleLoop, oracleLoop_eq h L x n (i + 1) _ fun j h1 h2 => hl j (by omega) (by omega),
      List.range'_succ, List.map_cons, List.flatten_cons, ofBytes_append,
      hlen n (i + 1) fun j h1 h2 => hl j (by omega) (by omega)]
    have e : (2 : Int) ^ (8 * L) = 256 ^ L := by rw [pow_mul]; norm_num
    rw [e]
    ring

theorem natToBytes_small {j : Nat} (h1 : 1 ≤ j) (h2 : j ≤ 255) : BN.natToBytes j = [Fin.ofNat 256 j] := by
  interval_cases j <;> rfl

/-- The oracle for the hash function made of blocks. -/
theorem randomOracle_blocks {m L : Nat} (B : Bytes → Bytes) (o : Bytes → Blocks m L) (x : Bytes)
    {p : Nat} (hp : 0 < p) (hm : Ctx.iterCount (8 * L) p = m) (hm2 : m ≤ 255)
    (hlim : m * (8 * L) < 130048) {e : Nat} (he : m * L * 8 = BN.bitLength p + 8 * L + e) :
    Ctx.randomOracle (blockHash B o) (8 * L) x p = .ok ((value (o x) / 2 ^ e % p : Nat) : Int) := by
  have hb : ∀ j, 1 ≤ j → j < 1 + m → ∃ hj : j - 1 < m,
      blockHash B o (Ctx.oracleInput j x) = List.ofFn (o x ⟨j - 1, hj⟩) := by
    intro j h1 h2
    refine ⟨by omega, ?_⟩
    rw [Ctx.oracleInput, natToBytes_small h1 (by omega)]
    show blockHash B o (Fin.ofNat 256 j :: x) = _
    have hv : (Fin.ofNat 256 j).val = j := by
      show j % 256 = j
      omega
    simp only [blockHash, hv]
    rw [dif_pos ⟨h1, by omega⟩]
  have hloop : Ctx.oracleLoop (blockHash B o) (8 * L) x m 1 0 = (value (o x) : Int) := by
    rw [oracleLoop_eq _ L x m 1 0 (by
      intro j h1 h2
      obtain ⟨_, e⟩ := hb j h1 h2
      rw [e, List.length_ofFn]), zero_mul, zero_add, value_cast]
    congr 1
    unfold cat
    congr 1
    apply List.ext_getElem
    · simp
    · intro i h1 h2
      simp only [List.getElem_map, List.getElem_range', List.getElem_ofFn]
      simp only [List.length_map, List.length_range'] at h1
      obtain ⟨_, e⟩ := hb (1 + 1 * i) (by omega) (by omega)
      rw [e]
      congr 3
      omega
  unfold Ctx.randomOracle
  simp only [hm, hloop]
  rw [if_pos hlim]
  have e1 : ((m * (8 * L) : Nat) : Int) - ((BN.bitLength (p : Int) + 8 * L : Nat) : Int) = (e : Int) := by
    have : m * (8 * L) = BN.bitLength (p : Int) + 8 * L + e := by rw [← he]; ring
    omega
  rw [e1, BN.rshift, if_neg (by omega), Res.ok_bind, BN.mod, if_neg (by omega), Int.toNat_natCast,
    Int.tdiv_eq_ediv_of_nonneg (by positivity)]
  push_cast
  rfl

/-- One value of the oracle is not much more likely than another. -/
theorem prob_value {m L p e w : Nat} (hp : 0 < p) (hw : m * L * 8 = w + e) (z : Nat)
    (S : Blocks m L → Prop) [DecidablePred S] (hS : ∀ y, S y → value y / 2 ^ e % p = z) :
    prob S ≤ 1 / p + 1 / 2 ^ w := by
  have hle : (univ.filter S).card ≤ 2 ^ e * (2 ^ w / p + 1) := by
    have := card_filter_le_of_inj S (range (2 ^ e) ×ˢ range (2 ^ w / p + 1))
      (fun y => (value y % 2 ^ e, value y / 2 ^ e / p)) ?_ ?_
    · rwa [card_product, card_range, card_range] at this
    · intro y _
      refine mem_product.2 ⟨mem_range.2 (Nat.mod_lt _ (by positivity)), mem_range.2 ?_⟩
      have h1 := value_lt y
      rw [hw, pow_add] at h1
      have h2 : value y / 2 ^ e < 2 ^ w := by rwa [Nat.div_lt_iff_lt_mul (by positivity)]
      exact Nat.lt_succ_of_le (Nat.div_le_div_right h2.le)
    · intro y y' hy hy' hq
      simp only [Prod.mk.injEq] at hq
      apply value_inj
      rw [← Nat.div_add_mod (value y) (2 ^ e), ← Nat.div_add_mod (value y') (2 ^ e), hq.1,
        ← Nat.div_add_mod (value y / 2 ^ e) p, ← Nat.div_add_mod (value y' / 2 ^ e) p, hq.2,
        hS y hy, hS y' hy']
  unfold prob
  rw [card_blocks, hw]
  have h1 : ((univ.filter S).card : ℚ) ≤ 2 ^ e * (2 ^ w / p + 1) := by
    have h2 : ((2 ^ w / p : Nat) : ℚ) ≤ ((2 ^ w : Nat) : ℚ) / p := by
      rw [le_div_iff₀ (by positivity)]
      exact_mod_cast Nat.div_mul_le_self _ _
    push_cast at h2
    have h3 : ((univ.filter S).card : ℚ) ≤ 2 ^ e * ((2 ^ w / p : Nat) + 1) := by exact_mod_cast hle
    exact h3.trans (by gcongr)
  refine (div_le_div_of_nonneg_right h1 (by positivity)).trans_eq ?_
  have : (p : ℚ) ≠ 0 := by positivity
  push_cast
  rw [pow_add]
  field_simp

/-- A set of values of the oracle comes up about as often as it should. -/
theorem prob_values {m L p e w : Nat} (hp : 0 < p) (hw : m * L * 8 = w + e) (V : Finset Nat)
    (S : Blocks m L → Prop) [DecidablePred S] (hS : ∀ y, S y → value y / 2 ^ e % p ∈ V) :
    prob S ≤ V.card * (1 / p + 1 / 2 ^ w) := by
  classical
  refine (prob_exists_le V (fun z y => S y ∧ value y / 2 ^ e % p = z) S fun y hy =>
    ⟨_, hS y hy, hy, rfl⟩).trans ?_
  refine (sum_le_sum fun z _ => prob_value hp hw z _ fun y hy => hy.2).trans_eq ?_
  rw [sum_const, nsmul_eq_mul]

end PJC.Oracle
