import Verif.Lemmas.Oracle
import Verif.Lemmas.Sigma
import Verif.Props.PyPrng
/-
The challenges of the proof systems when SHA-512 is a random function.
-/
namespace PJC.Oracle
open Finset PJC.Prob

/-- A SHA-512 digest: 64 bytes. -/
abbrev Digest := Fin 64 → Byte

/-- The digest functions with SHA-512 given by `o`. -/
def withSha512 (H : Hashes) (o : Bytes → Digest) : Hashes :=
  { H with sha512 := fun x => List.ofFn (o x) }

/-- The number a digest is read as. -/
def num (d : Digest) : Nat := (BN.ofBytes (List.ofFn d)).toNat

/-- The challenge of `c` bits that a digest gives. -/
def chalOf (c : Nat) (d : Digest) : Nat := num d / 2 ^ (511 - c) % 2 ^ c

/-- The string whose digest decides the challenge for the transcript `x`: the input of the second
block of `RandomOracleSha512` (context.cc:113-125). -/
def block (x : Bytes) : Bytes := 2 :: x

theorem block_inj {x y : Bytes} (h : block x = block y) : x = y := by simpa [block] using h

theorem num_cast (d : Digest) : (num d : Int) = BN.ofBytes (List.ofFn d) :=
  Int.toNat_of_nonneg (BN.ofBytes_nonneg _)

theorem num_lt (d : Digest) {k : Nat} (hk : k = 512) : num d < 2 ^ k := by
  have := BN.ofBytes_lt (List.ofFn d)
  rw [← num_cast, List.length_ofFn] at this
  have e : (256 : Int) ^ 64 = ((2 ^ k : Nat) : Int) := by
    rw [hk]
    decide +kernel
  rw [e] at this
  exact Int.ofNat_lt.1 this

theorem card_digest {k : Nat} (hk : k = 512) : Fintype.card Digest = 2 ^ k := by
  rw [Fintype.card_fun, Fintype.card_fin, Fintype.card_fin, hk]
  decide +kernel

/-- Two blocks of `w` bits, shifted by `e` and reduced to `c` bits. -/
theorem two_blocks (a b c e w : Nat) (hw : w = c + 1 + e) :
    BN.mod (((0 * 2 ^ w + (a : Int)) * 2 ^ w + (b : Int)).tdiv (2 ^ e)) (2 ^ c) =
      .ok ((b / 2 ^ e % 2 ^ c : Nat) : Int) := by
  have hp : ((0 * 2 ^ w + (a : Int)) * 2 ^ w + (b : Int)).tdiv (2 ^ e) =
      ((a * 2 ^ (c + 1) + b / 2 ^ e : Nat) : Int) := by
    rw [Int.tdiv_eq_ediv_of_nonneg (by positivity)]
    have : ((0 * 2 ^ w + (a : Int)) * 2 ^ w + (b : Int)) =
        (((a * 2 ^ (c + 1)) * 2 ^ e + b : Nat) : Int) := by
      rw [hw, pow_add]; push_cast; ring
    rw [this]
    have e2 : ((2 : Int) ^ e) = ((2 ^ e : Nat) : Int) := by push_cast; rfl
    rw [e2, ← Int.natCast_div, Nat.add_comm, Nat.add_mul_div_right _ _ (by positivity), Nat.add_comm]
  rw [hp, BN.mod, if_neg (by positivity)]
  have e3 : ((2 : Int) ^ c) = ((2 ^ c : Nat) : Int) := by push_cast; rfl
  rw [e3, ← Int.natCast_emod]
  congr 2
  rw [pow_succ, mul_comm (2 ^ c) 2, ← mul_assoc, Nat.mul_add_mod_self_right]

theorem num_inj {d d' : Digest} (h : num d = num d') : d = d' := by
  have h1 := Py.Prng.eq_beBytes (num_cast d).symm
  have h2 := Py.Prng.eq_beBytes (num_cast d').symm
  rw [List.length_ofFn] at h1 h2
  rw [h, ← h2] at h1
  exact List.ofFn_injective h1

theorem size_two_pow (c : Nat) : BN.bitLength ((2 : Int) ^ c) = c + 1 := by
  have : ((2 : Int) ^ c).natAbs = 2 ^ c := by simp [Int.natAbs_pow]
  rw [BN.bitLength, this, Nat.size_pow]

/-- For challenges of up to 511 bits, two blocks are hashed, and the challenge is read off the
second. -/
theorem randomOracle_two {H : Hashes} {o : Bytes → Digest} {c : Nat} (h1 : 1 ≤ c) (h2 : c ≤ 511)
    (x : Bytes) : Ctx.randomOracleSha512 (withSha512 H o) x (2 ^ c) =
      .ok ((chalOf c (o (block x)) : Nat) : Int) := by
  have hi : Ctx.iterCount 512 ((2 : Int) ^ c) = 2 := by
    rw [Ctx.iterCount, size_two_pow]; omega
  have e1 : (((2 * 512 : Nat) : Int) - ((c + 1 + 512 : Nat) : Int)) = ((511 - c : Nat) : Int) := by
    omega
  have eb1 : Ctx.oracleInput 1 x = 1 :: x := by
    have : BN.natToBytes 1 = [1] := by decide
    rw [Ctx.oracleInput, this]; rfl
  have eb2 : Ctx.oracleInput 2 x = block x := by
    have : BN.natToBytes 2 = [2] := by decide
    rw [Ctx.oracleInput, this]; rfl
  unfold Ctx.randomOracleSha512 Ctx.randomOracle
  dsimp only
  rw [hi, size_two_pow, if_pos (by norm_num), e1]
  simp only [Ctx.oracleLoop, eb1, eb2, withSha512, ← num_cast]
  generalize num (o (1 :: x)) = a
  show (BN.rshift _ _ >>= fun s => BN.mod s _) = _
  rw [chalOf]
  generalize num (o (block x)) = b
  rw [BN.rshift, if_neg (by omega), Int.toNat_natCast, Res.ok_bind]
  exact two_blocks a b c (511 - c) 512 (by omega)

theorem chalOf_lt (c : Nat) (d : Digest) : chalOf c d < 2 ^ c := Nat.mod_lt _ (by positivity)

theorem card_filter_le_of_inj {α β : Type} [Fintype α] (S : α → Prop) [DecidablePred S] (T : Finset β)
    (g : α → β) (h1 : ∀ d, S d → g d ∈ T) (h2 : ∀ d d', S d → S d' → g d = g d' → d = d') :
    (univ.filter S).card ≤ T.card :=
  card_le_card_of_injOn g (fun d hd => h1 d (mem_filter.1 (mem_coe.1 hd)).2)
    fun d hd d' hd' he => h2 d d' (mem_filter.1 (mem_coe.1 hd)).2 (mem_filter.1 (mem_coe.1 hd')).2 he

/-- At most one digest in `2^c` gives a certain challenge. -/
theorem prob_chal {c : Nat} (h2 : c ≤ 511) (S : Digest → Prop) [DecidablePred S]
    (hS : ∀ d d', S d → S d' → chalOf c d = chalOf c d') : prob S ≤ 1 / 2 ^ c := by
  obtain ⟨e, he⟩ : ∃ e, 511 - c = e := ⟨_, rfl⟩
  have hle : (univ.filter S).card ≤ 2 * 2 ^ e := by
    have := card_filter_le_of_inj S (range 2 ×ˢ range (2 ^ e))
      (fun d => (num d / 2 ^ (e + c), num d % 2 ^ e)) ?_ ?_
    · rwa [card_product, card_range, card_range] at this
    · intro d _
      have := num_lt d (k := e + c + 1) (by omega)
      refine mem_product.2 ⟨mem_range.2 ?_, mem_range.2 ?_⟩
      swap
      · exact Nat.mod_lt _ (by positivity)
      rw [Nat.div_lt_iff_lt_mul (by positivity)]
      rwa [pow_succ, mul_comm] at this
    · intro d d' hd hd' hq
      simp only [Prod.mk.injEq] at hq
      have hc := hS d d' hd hd'
      apply num_inj
      have key : ∀ d : Digest, num d = 2 ^ e * (2 ^ c * (num d / 2 ^ (e + c)) + chalOf c d) +
          num d % 2 ^ e := by
        intro d
        have e1 : num d / 2 ^ (e + c) = num d / 2 ^ e / 2 ^ c := by
          rw [Nat.div_div_eq_div_mul, ← pow_add]
        rw [chalOf, he, e1, Nat.div_add_mod, Nat.div_add_mod]
      rw [key d, key d', hq.1, hq.2, hc]
  unfold prob
  rw [card_digest (k := e + c + 1) (by omega), div_le_div_iff₀ (by positivity) (by positivity)]
  have : (univ.filter S).card * 2 ^ c ≤ 1 * 2 ^ (e + c + 1) := by
    refine (Nat.mul_le_mul_right _ hle).trans_eq ?_
    ring
  exact_mod_cast this

end PJC.Oracle
