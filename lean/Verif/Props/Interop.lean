import Verif.Lemmas.Interop
import Verif.Props.Weierstrass
/-
C109, C110: the Java and the Python implementation compute the same random oracle and hash
to the same curve points as the C++ one.
-/
namespace PJC
namespace Interop

/-- The hash types all three implementations have. -/
inductive Hash where
  | sha256 | sha384 | sha512
  deriving DecidableEq, Repr

/-- The Java constant. -/
def Hash.java : Hash → Java.HashType
  | .sha256 => .sha256
  | .sha384 => .sha384
  | .sha512 => .sha512

/-- The Python constant. -/
def Hash.py : Hash → Py.HashType
  | .sha256 => .sha256
  | .sha384 => .sha384
  | .sha512 => .sha512

/-- The C++ function: `RandomOracleSha256`, `RandomOracleSha384`, `RandomOracleSha512`. -/
def cppOracle (H : Hashes) : Hash → Bytes → BigNum → Res BigNum
  | .sha256 => Ctx.randomOracleSha256 H
  | .sha384 => Ctx.randomOracleSha384 H
  | .sha512 => Ctx.randomOracleSha512 H

/-- Output length of the hash in bits. -/
def Hash.bits : Hash → Nat
  | .sha256 => 256
  | .sha384 => 384
  | .sha512 => 512

/-- The digests have the lengths of SHA-256, SHA-384 and SHA-512. -/
structure Sha2 (H : Hashes) : Prop where
  len256 : ∀ d, (H.sha256 d).length = 32
  len384 : ∀ d, (H.sha384 d).length = 48
  len512 : ∀ d, (H.sha512 d).length = 64

/-- How many digests the oracle needs for an output below `max`. -/
def blocks (t : Hash) (max : BigNum) : Nat := Ctx.iterCount t.bits max

theorem cppOracle_eq (H : Hashes) (t : Hash) (x : Bytes) (max : BigNum) :
    cppOracle H t x max = Ctx.randomOracle (t.java.digest H) t.bits x max := by
  cases t <;> rfl

theorem blocks_ge (t : Hash) (max : BigNum) :
    BN.bitLength max + t.bits ≤ blocks t max * t.bits := by
  have h0 : 0 < t.bits := by cases t <;> decide
  simp only [blocks, Ctx.iterCount]
  have h1 := Nat.div_add_mod (BN.bitLength max + t.bits + t.bits - 1) t.bits
  have h2 := Nat.mod_lt (BN.bitLength max + t.bits + t.bits - 1) h0
  rw [Nat.mul_comm] at h1
  omega

theorem oracleLoop_nonneg (h : Bytes → Bytes) (len : Nat) (x : Bytes) :
    ∀ (n i : Nat) (acc : Int), 0 ≤ acc → 0 ≤ Ctx.oracleLoop h len x n i acc := by
  intro n
  induction n with
  | zero => intro i acc h0; exact h0
  | succ n ih =>
    intro i acc h0
    have h1 : (0 : Int) ≤ 2 ^ len := pow_nonneg (by norm_num) _
    exact ih _ _ (add_nonneg (mul_nonneg h0 h1) (BN.ofBytes_nonneg _))

/-- The C++ oracle within its limit. -/
theorem cppOracle_value (H : Hashes) (t : Hash) (x : Bytes) (max : BigNum) (hmax : 0 < max)
    (hb : blocks t max * t.bits < 130048) :
    cppOracle H t x max = .ok (Ctx.oracleLoop (t.java.digest H) t.bits x (blocks t max) 1 0 /
      2 ^ (blocks t max * t.bits - (BN.bitLength max + t.bits)) % max) := by
  have h1 := blocks_ge t max
  have h2 := oracleLoop_nonneg (t.java.digest H) t.bits x (blocks t max) 1 0 (le_refl _)
  have hb' : Ctx.iterCount t.bits max * t.bits < 130048 := hb
  rw [cppOracle_eq]
  simp only [Ctx.randomOracle, if_pos hb', BN.rshift, BN.mod]
  simp only [blocks] at h1 h2 ⊢
  rw [if_neg (by omega), Res.ok_bind, if_neg (ne_of_gt hmax), Int.tdiv_eq_ediv_of_nonneg h2]
  congr 4
  omega

theorem javaOracle_value (H : Hashes) (t : Hash) (x : Bytes) (max : BigNum) (hmax : 0 < max) :
    Java.randomOracle H t.java x max =
      .ok (Ctx.oracleLoop (t.java.digest H) t.bits x (blocks t max) 1 0 /
        2 ^ (blocks t max * t.bits - (BN.bitLength max + t.bits)) % max) := by
  have hbits : t.java.bits = t.bits := by cases t <;> rfl
  have hit : (BN.bitLength max + t.bits + t.bits - 1) / t.bits = blocks t max := rfl
  simp only [Java.randomOracle, Java.bitLength_eq (le_of_lt hmax), hbits, hit]
  have := Java.oracleLoop_ok (t.java.digest H) t.bits x (blocks t max) 1 0 (by norm_num)
  rw [Nat.cast_one] at this
  rw [this, Java.Out.ok_bind, if_neg (not_le.2 hmax)]

theorem pyOracle_value (H : Hashes) (hH : Sha2 H) (t : Hash) (x : Bytes) (max : BigNum)
    (hmax : 0 < max) (hb : blocks t max ≤ 255) :
    Py.randomOracle H t.py (.bytes x) max =
      .ok (Ctx.oracleLoop (t.java.digest H) t.bits x (blocks t max) 1 0 /
        2 ^ (blocks t max * t.bits - (BN.bitLength max + t.bits)) % max) := by
  have hbits : t.py.bits = t.bits := by cases t <;> rfl
  have hdig : t.py.digest H = t.java.digest H := by cases t <;> rfl
  have hlen : ∀ d, (t.py.digest H d).length * 8 = t.py.bits := by
    intro d
    cases t
    · exact congrArg (· * 8) (hH.len256 d)
    · exact congrArg (· * 8) (hH.len384 d)
    · exact congrArg (· * 8) (hH.len512 d)
  have hit : (BN.bitLength max + t.bits + t.bits - 1) / t.bits = blocks t max := rfl
  obtain ⟨v, hv1, hv2⟩ := Py.oracleLoop_ok H t.py hlen x (blocks t max) 1 0 (by norm_num)
  rw [hdig, hbits, Nat.cast_zero] at hv2
  simp only [Py.randomOracle, hbits, hit, if_neg (not_lt.2 hb), Py.Out.ok_bind, hv1,
    if_neg (ne_of_gt hmax)]
  rw [Int.fmod_eq_emod_of_nonneg _ (le_of_lt hmax), ← hv2, Nat.shiftRight_eq_div_pow]
  push_cast
  rfl

/-- **C109, one oracle**.  For every input, every bound and every hash type, within the
size limits of the C++ and of the Python implementation, the three random oracles return
the same value, and it lies in `[0, max)`.  A positive number given to the Python oracle
stands for its minimal big-endian bytes. -/
theorem C109_one_oracle (H : Hashes) (hH : Sha2 H) (t : Hash) (x : Bytes) (max : BigNum)
    (hmax : 0 < max) (hcpp : blocks t max * t.bits < 130048) (hpy : blocks t max ≤ 255) :
    ∃ v, 0 ≤ v ∧ v < max ∧
      cppOracle H t x max = .ok v ∧
      Java.randomOracle H t.java x max = .ok v ∧
      Py.randomOracle H t.py (.bytes x) max = .ok v ∧
      ∀ n : Int, 0 < n → x = BN.natToBytes n.toNat →
        Py.randomOracle H t.py (.int n) max = .ok v := by
  refine ⟨_, Int.emod_nonneg _ (ne_of_gt hmax), Int.emod_lt_of_pos _ hmax,
    cppOracle_value H t x max hmax hcpp, javaOracle_value H t x max hmax,
    pyOracle_value H hH t x max hmax hpy, ?_⟩
  intro n hn hx
  rw [← pyOracle_value H hH t x max hmax hpy, hx]
  simp only [Py.randomOracle, Py.longToBytes_pos hn, Py.Out.ok_bind]

/-- **C109, limits**.  What each does with a positive bound beyond its limit: the C++
oracle aborts, the Python oracle raises `ValueError`, the Java oracle has no limit. -/
theorem C109_limits (H : Hashes) (t : Hash) (x : Bytes) (max : BigNum) (hmax : 0 < max) :
    (130048 ≤ blocks t max * t.bits → cppOracle H t x max = .crash) ∧
    (255 < blocks t max → Py.randomOracle H t.py (.bytes x) max = .raises .valueError) ∧
    ∃ v, 0 ≤ v ∧ v < max ∧ Java.randomOracle H t.java x max = .ok v := by
  refine ⟨fun h => ?_, fun h => ?_, _, Int.emod_nonneg _ (ne_of_gt hmax),
    Int.emod_lt_of_pos _ hmax, javaOracle_value H t x max hmax⟩
  · rw [cppOracle_eq]
    exact (C30_oracle_range _ t.bits (by cases t <;> decide) x max).2.1 h
  · have hbits : t.py.bits = t.bits := by cases t <;> rfl
    have hit : (BN.bitLength max + t.bits + t.bits - 1) / t.bits = blocks t max := rfl
    simp only [Py.randomOracle, hbits, hit, if_pos h]

/-- **C109, numbers and bytes**.  The conversions agree with the C++ ones on every positive
number and on every byte string.  Zero is the exception: the C++ writes the empty string,
Python one zero byte, and the Java conversion fails with an index error. -/
theorem C109_conversions :
    (∀ n : Int, 0 < n → ∃ bs, BN.toBytes n = .ok bs ∧
      Java.bigIntegerToByteArray n = .ok bs ∧ Py.longToBytes n = .ok bs) ∧
    (∀ bs : Bytes, Java.byteArrayToBigInteger bs = BN.ofBytes bs ∧
      Py.bytesToLong bs = BN.ofBytes bs) ∧
    BN.toBytes 0 = .ok [] ∧ Java.bigIntegerToByteArray 0 = .throws .arrayIndex ∧
      Py.longToBytes 0 = .ok [0] := by
  refine ⟨fun n hn => ⟨_, BN.toBytes_of_nonneg (le_of_lt hn), Java.bigIntegerToByteArray_pos hn,
    Py.longToBytes_pos hn⟩, fun bs => ⟨Java.byteArrayToBigInteger_eq bs, Py.bytesToLong_eq bs⟩,
    rfl, Java.bigIntegerToByteArray_zero, Py.longToBytes_zero⟩

/-! ### Java's `BigInteger` -/

theorem ofBytes_cons (b : Byte) (bs : Bytes) :
    BN.ofBytes (b :: bs) = b.val * 256 ^ bs.length + BN.ofBytes bs := by
  have key : ∀ (bs : Bytes) (acc : Nat), bs.foldl (fun acc b => acc * 256 + b.val) acc =
      acc * 256 ^ bs.length + bs.foldl (fun acc b => acc * 256 + b.val) 0 := by
    intro bs
    induction bs with
    | nil => intro acc; simp
    | cons b bs ih =>
      intro acc
      rw [List.foldl_cons, ih, List.foldl_cons, ih (0 * 256 + b.val), List.length_cons]
      ring
  simp only [BN.ofBytes, List.foldl_cons]
  rw [key]
  push_cast
  ring

/-- The value of `l + 1` bytes lies in the two's complement range, and determines the unsigned value. -/
theorem ofTwosComplement_spec (b : Byte) (bs : Bytes) :
    -(128 * 256 ^ bs.length) ≤ Java.ofTwosComplement (b :: bs) ∧
    Java.ofTwosComplement (b :: bs) < 128 * 256 ^ bs.length ∧
    (256 ^ (bs.length + 1) : Int) ∣ Java.ofTwosComplement (b :: bs) - BN.ofBytes (b :: bs) := by
  have h1 := BN.ofBytes_lt bs
  have h2 := BN.ofBytes_nonneg bs
  have hb : (b.val : Int) ≤ 255 := by have := b.isLt; omega
  have hb0 : (0 : Int) ≤ b.val := Int.natCast_nonneg _
  have hp : (0 : Int) < 256 ^ bs.length := by positivity
  simp only [Java.ofTwosComplement, List.headD_cons, ofBytes_cons, List.length_cons]
  split
  · rename_i h
    have h' : (128 : Int) ≤ b.val := by exact_mod_cast h
    refine ⟨?_, ?_, ⟨-1, by ring⟩⟩ <;> rw [pow_succ] <;> nlinarith
  · rename_i h
    have h' : (b.val : Int) ≤ 127 := by omega
    refine ⟨?_, ?_, ⟨0, by ring⟩⟩ <;> nlinarith

/-- The bit length, as the two bounds of the two's complement. -/
theorem bitLength_lt (n : Int) (k : Nat) :
    Java.bitLength n ≤ k ↔ -2 ^ k ≤ n ∧ n < 2 ^ k := by
  have hp : (0 : Int) < 2 ^ k := by positivity
  have e : ((2 ^ k : Nat) : Int) = 2 ^ k := by push_cast; rfl
  rw [Java.bitLength, Nat.size_le]
  split <;> omega

/-- **C109, Java's conversions of all integers**: `new BigInteger(n.toByteArray())` is `n` for negative
numbers as well, and no shorter array gives `n`. -/
theorem C109_java_integers (n : Int) :
    Java.ofTwosComplement (Java.toByteArray n) = n ∧
    ∀ bs, bs ≠ [] → Java.ofTwosComplement bs = n → (Java.toByteArray n).length ≤ bs.length := by
  set k := Java.bitLength n / 8 with hk
  have hlen : (Java.toByteArray n).length = k + 1 := by
    rw [Java.toByteArray]
    refine Curve.padTo_length (BN.natToBytes_length_le ?_)
    have h0 : (0 : Int) < 256 ^ (Java.bitLength n / 8 + 1) := by positivity
    have h1 := Int.emod_lt_of_pos n h0
    have h2 := Int.emod_nonneg n (ne_of_gt h0)
    have e : ((256 ^ (Java.bitLength n / 8 + 1) : Nat) : Int) = 256 ^ (Java.bitLength n / 8 + 1) := by
      push_cast; rfl
    omega
  have e1 : ∀ l : Nat, (128 * 256 ^ l : Int) = 2 ^ (8 * l + 7) := by
    intro l
    rw [pow_add, pow_mul]
    norm_num
    ring
  refine ⟨?_, fun bs hne hbs => ?_⟩
  · have hval : BN.ofBytes (Java.toByteArray n) = n % 256 ^ (k + 1) := by
      rw [Java.toByteArray, Curve.ofBytes_padTo_natToBytes _ (Int.emod_nonneg _ (by positivity))]
    obtain ⟨b, bs, hb⟩ : ∃ b bs, Java.toByteArray n = b :: bs := by
      cases h : Java.toByteArray n with
      | nil => rw [h] at hlen; simp at hlen
      | cons b bs => exact ⟨b, bs, rfl⟩
    have hl : bs.length = k := by rw [hb, List.length_cons] at hlen; omega
    obtain ⟨h1, h2, h3⟩ := ofTwosComplement_spec b bs
    rw [hl, ← hb] at h1 h2 h3
    have h4 := (bitLength_lt n (8 * k + 7)).1 (by omega)
    rw [← e1] at h4
    rw [hval] at h3
    have h5 : (256 ^ (k + 1) : Int) ∣ n % 256 ^ (k + 1) - n :=
      ⟨-(n / 256 ^ (k + 1)), by have := Int.emod_add_mul_ediv n (256 ^ (k + 1)); linarith⟩
    have h6 := Int.dvd_add h3 h5
    have h7 : Java.ofTwosComplement (Java.toByteArray n) - n % 256 ^ (k + 1) +
        (n % 256 ^ (k + 1) - n) = Java.ofTwosComplement (Java.toByteArray n) - n := by ring
    rw [h7] at h6
    have h8 := Int.eq_zero_of_abs_lt_dvd h6 (by
      rw [abs_lt, pow_succ]
      constructor <;> linarith [h4.1, h4.2])
    omega
  · obtain ⟨b, bs', rfl⟩ := List.exists_cons_of_ne_nil hne
    obtain ⟨h1, h2, -⟩ := ofTwosComplement_spec b bs'
    rw [hbs, e1] at h1 h2
    have := (bitLength_lt n (8 * bs'.length + 7)).2 ⟨h1, h2⟩
    rw [hlen, List.length_cons]
    omega

/-- The numbers 127, 128, -128 and -129. -/
example : Java.toByteArray 127 = [127] ∧ Java.toByteArray 128 = [0, 128] ∧
    Java.toByteArray (-128) = [128] ∧ Java.toByteArray (-129) = [255, 127] := by
  decide +kernel

/-- **C109, block sizes of the Python conversion**.  With a block size, fewer zero bytes
than that are put in front, so that the length is a multiple of it; the result still reads
back as the number.  Negative numbers are refused. -/
theorem C109_python_round_trip (n : Int) (blocksize : Nat) :
    (0 ≤ n → ∃ bs, Py.longToBytes n blocksize = .ok bs ∧ Py.bytesToLong bs = n ∧
      (∃ k shortest, Py.longToBytes n = .ok shortest ∧ bs = List.replicate k 0 ++ shortest ∧
        (k = 0 ∨ k < blocksize)) ∧
      (0 < blocksize → blocksize ∣ bs.length)) ∧
    (n < 0 → Py.longToBytes n blocksize = .raises .valueError) := by
  refine ⟨fun hn => ?_, fun hn => Py.longToBytes_neg hn _⟩
  have base : ∃ bs, Py.longToBytes n = .ok bs ∧ BN.ofBytes bs = n := by
    rcases eq_or_lt_of_le hn with rfl | h
    · exact ⟨[0], Py.longToBytes_zero, by decide⟩
    · exact ⟨_, Py.longToBytes_pos h, by rw [BN.ofBytes_natToBytes]; omega⟩
  obtain ⟨bs, h1, h2⟩ := base
  have h1' := h1
  simp only [Py.longToBytes, if_neg (not_lt.2 hn), lt_irrefl, if_false, Py.Out.ok.injEq] at h1
  by_cases hb : 0 < blocksize
  · refine ⟨Py.padZeroBytes bs blocksize, ?_, ?_, ?_, fun _ => Py.padZeroBytes_length bs hb⟩
    · simp only [Py.longToBytes, if_neg (not_lt.2 hn), h1, if_pos hb]
    · rw [Py.bytesToLong_eq, Py.ofBytes_padZeroBytes, h2]
    · unfold Py.padZeroBytes
      split
      · exact ⟨_, bs, h1', rfl, Or.inr (by omega)⟩
      · exact ⟨0, bs, h1', rfl, Or.inl rfl⟩
  · refine ⟨bs, ?_, by rw [Py.bytesToLong_eq, h2], ⟨0, bs, h1', rfl, Or.inl rfl⟩,
      fun h => absurd h hb⟩
    simp only [Py.longToBytes, if_neg (not_lt.2 hn), h1, if_neg hb]

/-! ### C110: hashing to the curve -/

open Curve

/-- The C++ functions `GetPointByHashingToCurveSha256`, `...Sha384`, `...Sha512`. -/
def cppHash (c : Curve) (H : Hashes) (t : Hash) (sqrt : BigNum → BigNum → Res BigNum)
    (fuel : Nat) (m : Bytes) : Option (Res RawPoint) :=
  match t with
  | .sha256 => c.hashSha256 H sqrt fuel m
  | .sha384 => c.hashSha384 H sqrt fuel m
  | .sha512 => c.hashSha512 H sqrt fuel m

theorem cppHash_eq (c : Curve) (H : Hashes) (t : Hash) (sqrt : BigNum → BigNum → Res BigNum)
    (fuel : Nat) (m : Bytes) :
    cppHash c H t sqrt fuel m = c.hashToCurve sqrt (fun s => cppOracle H t s c.p) fuel m := by
  cases t <;> rfl

/-- What is assumed of BouncyCastle's square root: some root, reduced, of every square
(zero included), `null` for the others. -/
def BcSqrt (sqrt : Int → Option Int) (p : Nat) : Prop :=
  ∀ a : Int, (∃ s, sqrt a = some s ∧ 0 ≤ s ∧ s < p ∧ (s * s - a) % p = 0) ∨
    (sqrt a = none ∧ ∀ z : Int, (z * z - a) % p ≠ 0)

/-- The x-coordinates tried in turn, from a first one. -/
def triedFrom (H : Hashes) (t : Hash) (p : Int) : Nat → Int → Res BigNum
  | 0, x => .ok x
  | k + 1, x => cppOracle H t (BN.natToBytes x.toNat) p >>= triedFrom H t p k

/-- Specification: the x-coordinate tried in round `k` for the string `m`: the oracle of
`m`, then the oracle of the bytes of the previous one. -/
def tried (H : Hashes) (t : Hash) (p : Int) (m : Bytes) (k : Nat) : Res BigNum :=
  cppOracle H t m p >>= triedFrom H t p k

theorem ySquare_mod {c : Curve} {p : Nat} (h : c.Proper p) (x : Int) :
    Java.ySquare c x = (x * x * x + c.a * x + c.b) % p := by
  have e : Java.ySquare c x ≡ x * x * x + c.a * x + c.b [ZMOD p] := by
    simp only [Java.ySquare, h.hp]
    refine (Int.mod_modEq _ _).trans ?_
    have h1 : (x * ((x * x % p + c.a) % p)) % p ≡ x * (x * x + c.a) [ZMOD p] :=
      (Int.mod_modEq _ _).trans (Int.ModEq.mul_left _
        ((Int.mod_modEq _ _).trans ((Int.mod_modEq _ _).add_right _)))
    refine (h1.add_right _).trans ?_
    rw [show x * (x * x + c.a) + c.b = x * x * x + c.a * x + c.b by ring]
  have h2 : Java.ySquare c x % p = Java.ySquare c x := by
    simp only [Java.ySquare, h.hp, Int.emod_emod_of_dvd _ (dvd_refl (p : Int))]
  rw [← h2]
  exact e

theorem sub_emod_mod (z q : Int) (p : Nat) : (z * z - q % p) % p = (z * z - q) % p := by
  rw [Int.sub_emod, Int.emod_emod, ← Int.sub_emod]

theorem isBitSet_zero {s : Int} (h : 0 ≤ s) : BN.isBitSet s 0 = true ↔ s % 2 = 1 := by
  simp only [BN.isBitSet, Nat.testBit_zero, decide_eq_true_eq]
  omega

/-- One round of the Java loop. -/
theorem java_round {c : Curve} {p : Nat} (h : c.Proper p) {sqrt : Int → Option Int}
    (hs : BcSqrt sqrt p) {x : Int} (hx0 : 0 ≤ x) (hx1 : x < p) :
    (∃ s, sqrt (Java.ySquare c x) = some s ∧
      c.onCurve x (if BN.isBitSet s 0 then (-s) % c.p else s) = true ∧
      (if BN.isBitSet s 0 then (-s) % c.p else s) % 2 = 0) ∨
    (sqrt (Java.ySquare c x) = none ∧ ∀ y, ¬ c.onCurve x y = true) := by
  have hp0 : 0 < (p : Int) := by exact_mod_cast h.prime.pos
  have hodd : p % 2 = 1 := (h.prime.eq_two_or_odd).resolve_left h.odd
  rw [ySquare_mod h]
  set q := x * x * x + c.a * x + c.b with hq
  rcases hs (q % p) with ⟨s, h1, h2, h3, h4⟩ | ⟨h1, h2⟩
  · left
    rw [sub_emod_mod] at h4
    refine ⟨s, h1, ?_⟩
    by_cases hb : BN.isBitSet s 0 = true
    · have hso := (isBitSet_zero h2).1 hb
      have hneg : (-s) % (p : Int) = p - s := by
        rw [← Int.add_emod_right, Int.emod_eq_of_lt (by omega) (by omega)]; ring
      simp only [hb, if_true, h.hp, hneg]
      refine ⟨?_, by omega⟩
      rw [onCurve_iff, h.hp]
      refine ⟨hx0, hx1, by omega, by omega, ?_⟩
      have : ((p : Int) - s) * (p - s) - q = (s * s - q) + p * (p - 2 * s) := by ring
      rw [this, Int.add_mul_emod_self_left, h4]
    · simp only [if_neg hb]
      have hse : s % 2 = 0 := by
        have := (isBitSet_zero h2).not.1 hb
        omega
      refine ⟨?_, hse⟩
      rw [onCurve_iff, h.hp]
      exact ⟨hx0, hx1, h2, h3, h4⟩
  · right
    refine ⟨h1, fun y hy => ?_⟩
    rw [onCurve_iff, h.hp] at hy
    exact h2 y (by rw [sub_emod_mod]; exact hy.2.2.2.2)

theorem blocks_le {c : Curve} (hbits : BN.bitLength c.p ≤ 4096) (t : Hash) :
    blocks t c.p * t.bits < 130048 ∧ blocks t c.p ≤ 255 := by
  have h : Ctx.iterCount t.bits c.p * t.bits ≤ BN.bitLength c.p + t.bits + t.bits - 1 :=
    Nat.div_mul_le_self _ _
  simp only [blocks]
  have h2 : 256 ≤ t.bits ∧ t.bits ≤ 512 := by cases t <;> decide
  constructor
  · omega
  · by_contra hc
    have : 256 * 256 ≤ Ctx.iterCount t.bits c.p * t.bits :=
      Nat.mul_le_mul (by omega) h2.1
    omega

/-- The oracles of the three implementations at the field prime. -/
theorem oracles {c : Curve} {p : Nat} (h : c.Proper p) (hbits : BN.bitLength c.p ≤ 4096)
    (H : Hashes) (hH : Sha2 H) (t : Hash) (x : Bytes) :
    ∃ v, 0 ≤ v ∧ v < (p : Int) ∧ cppOracle H t x c.p = .ok v ∧
      Java.randomOracle H t.java x c.p = .ok v ∧
      Py.randomOracle H t.py (.bytes x) c.p = .ok v ∧
      ∀ n : Int, 0 < n → x = BN.natToBytes n.toNat →
        Py.randomOracle H t.py (.int n) c.p = .ok v := by
  have hp0 : 0 < c.p := by rw [h.hp]; exact_mod_cast h.prime.pos
  obtain ⟨v, h0, h1, h2⟩ := C109_one_oracle H hH t x c.p hp0 (blocks_le hbits t).1
    (blocks_le hbits t).2
  rw [h.hp] at h1
  exact ⟨v, h0, h1, h2⟩

/-- The loops of the C++ and of the Java implementation, from the same x-coordinate. -/
theorem java_loop {c : Curve} {p : Nat} (h : c.Proper p) (hbits : BN.bitLength c.p ≤ 4096)
    {sqrt : BigNum → BigNum → Res BigNum} (hs : SqrtOk sqrt p) {bc : Int → Option Int}
    (hbc : BcSqrt bc p) (H : Hashes) (hH : Sha2 H) (t : Hash) :
    ∀ (fuel : Nat) (x : Int), 0 ≤ x → x < p →
      (∃ P, Java.hashLoop c bc (fun s => Java.randomOracle H t.java s c.p) fuel x = some (.ok P) ∧
        (c.hashLoop sqrt (fun s => cppOracle H t s c.p) fuel x = some (.ok P) ∨
          ∃ x, P = .aff x 0 ∧ c.onCurve x 0 = true)) ∨
      (Java.hashLoop c bc (fun s => Java.randomOracle H t.java s c.p) fuel x =
          some (.throws .arrayIndex) ∧ (∀ y, ¬ c.onCurve 0 y = true) ∧
        ∃ k, k < fuel ∧ triedFrom H t c.p k x = .ok 0) ∨
      (Java.hashLoop c bc (fun s => Java.randomOracle H t.java s c.p) fuel x = none ∧
        c.hashLoop sqrt (fun s => cppOracle H t s c.p) fuel x = none) := by
  intro fuel
  induction fuel with
  | zero => intro x _ _; right; right; exact ⟨rfl, rfl⟩
  | succ fuel ih =>
    intro x hx0 hx1
    have hxm : x % (p : Int) = x := Int.emod_eq_of_lt hx0 hx1
    have hcpp := h.hashInternal_spec hs x
    rw [hxm] at hcpp
    rcases java_round h hbc hx0 hx1 with ⟨s, h1, h2, h3⟩ | ⟨h1, h2⟩
    · left
      refine ⟨.aff x (if BN.isBitSet s 0 then (-s) % c.p else s), ?_, ?_⟩
      · simp only [Java.hashLoop, h1]
      · generalize (if BN.isBitSet s 0 then (-s) % c.p else s) = y at h2 h3
        rcases hcpp with ⟨y', hy', hon, hev, -⟩ | ⟨-, hz⟩
        · left
          obtain ⟨-, -, a0, a1, a2⟩ := (c.onCurve_iff _ _).1 hon
          obtain ⟨-, -, b0, b1, b2⟩ := (c.onCurve_iff _ _).1 h2
          rw [h.hp] at a1 a2 b1 b2
          have : y' = y := root_unique h.prime h.odd a0 a1 b0 b1 a2 b2 (by rw [hev, h3])
          simp only [Curve.hashLoop, hy', this]
        · right
          have := hz y h2
          subst this
          exact ⟨x, rfl, h2⟩
    · have hint : c.hashInternal sqrt x = .err .internal := by
        rcases hcpp with ⟨y', -, hon, -⟩ | ⟨he, -⟩
        · exact absurd hon (h2 y')
        · exact he
      rcases eq_or_lt_of_le hx0 with h0 | h0
      · subst h0
        right; left
        refine ⟨?_, h2, 0, by omega, rfl⟩
        simp only [Java.hashLoop, h1, Java.bigIntegerToByteArray_zero, Java.Out.throws_bind]
      · obtain ⟨v, v0, v1, hc, hj, -⟩ := oracles h hbits H hH t (BN.natToBytes x.toNat)
        have e1 : Java.hashLoop c bc (fun s => Java.randomOracle H t.java s c.p) (fuel + 1) x =
            Java.hashLoop c bc (fun s => Java.randomOracle H t.java s c.p) fuel v := by
          simp only [Java.hashLoop, h1, Java.bigIntegerToByteArray_pos h0, Java.Out.ok_bind, hj]
        have e2 : c.hashLoop sqrt (fun s => cppOracle H t s c.p) (fuel + 1) x =
            c.hashLoop sqrt (fun s => cppOracle H t s c.p) fuel v := by
          simp only [Curve.hashLoop, hint, BN.toBytes_of_nonneg hx0, Res.ok_bind, hc]
        rw [e1, e2]
        rcases ih v v0 v1 with g | ⟨g1, g2, k, hk, g3⟩ | g
        · exact Or.inl g
        · refine Or.inr (Or.inl ⟨g1, g2, k + 1, by omega, ?_⟩)
          rw [triedFrom, hc, Res.ok_bind]
          exact g3
        · exact Or.inr (Or.inr g)

/-- **C110, Java**.  For every curve, every string and every number of rounds: a point
returned by the Java hash is the point the C++ hash returns, unless its y-coordinate is
zero; the only failure is an index error, when the x-coordinate zero comes up and no point
of the curve has it; and when the Java hash has not returned after some number of rounds,
neither has the C++ one. -/
theorem C110_java {c : Curve} {p : Nat} (h : c.Proper p) (hbits : BN.bitLength c.p ≤ 4096)
    {sqrt : BigNum → BigNum → Res BigNum} (hs : SqrtOk sqrt p) {bc : Int → Option Int}
    (hbc : BcSqrt bc p) (H : Hashes) (hH : Sha2 H) (t : Hash) (fuel : Nat) (m : Bytes) :
    (∃ P, Java.hashIntoTheCurve c H t.java bc fuel m = some (.ok P) ∧
      (cppHash c H t sqrt fuel m = some (.ok P) ∨
        ∃ x, P = .aff x 0 ∧ IsPoint c.p c.a c.b x 0)) ∨
    (Java.hashIntoTheCurve c H t.java bc fuel m = some (.throws .arrayIndex) ∧
      (∀ y, ¬ IsPoint c.p c.a c.b 0 y) ∧ ∃ k, k < fuel ∧ tried H t c.p m k = .ok 0) ∨
    (Java.hashIntoTheCurve c H t.java bc fuel m = none ∧
      cppHash c H t sqrt fuel m = none) := by
  obtain ⟨v, v0, v1, hc, hj, -⟩ := oracles h hbits H hH t m
  rw [cppHash_eq]
  simp only [Java.hashIntoTheCurve, hj, hashToCurve, hc, tried, Res.ok_bind, ← isPoint_iff]
  exact java_loop h hbits hs hbc H hH t fuel v v0 v1

/-- One round of the Python recursion. -/
theorem py_round {c : Curve} {p : Nat} (h : c.Proper p) (L : Py.Lib) (hs : SqrtOk L.sqrt p)
    {x : Int} (hx0 : 0 ≤ x) (hx1 : x < p) :
    ∃ r, BN.modExp (Py.computeYSquare c x) ((c.p - 1) / 2) c.p = .ok r ∧
      ((r = 1 ∧ ∃ s, L.sqrt (Py.computeYSquare c x) c.p = .ok s ∧
          c.onCurve x (if BN.isBitSet s 0 then c.p - s % c.p else s) = true ∧
          (if BN.isBitSet s 0 then c.p - s % c.p else s) % 2 = 0 ∧
          (if BN.isBitSet s 0 then c.p - s % c.p else s) ≠ 0) ∨
        (r ≠ 1 ∧ ∀ y, c.onCurve x y = true → y = 0)) := by
  have hp0 : 0 < (p : Int) := by exact_mod_cast h.prime.pos
  have hodd : p % 2 = 1 := (h.prime.eq_two_or_odd).resolve_left h.odd
  set q := x * x * x + c.a * x + c.b with hq
  have hy2 : Py.computeYSquare c x = q % p := by
    rw [Py.computeYSquare, h.hp, Int.fmod_eq_emod_of_nonneg _ (le_of_lt hp0), hq]
    congr 1
    ring
  have hhalf : (c.p - 1) / 2 = ((p / 2 : Nat) : Int) := by rw [h.hp]; omega
  obtain ⟨b, hb, hbs⟩ := h.isSquare_spec (q % p)
  have hm : BN.modExp (q % p) ((p / 2 : Nat) : Int) c.p = .ok ((q % p) ^ (p / 2) % p) := by
    simp only [BN.modExp, h.hp]
    rw [if_neg (by omega), if_neg (by omega), Int.toNat_natCast]
  refine ⟨(q % p) ^ (p / 2) % p, by rw [hy2, hhalf, hm], ?_⟩
  simp only [isSquare, h.half, Res.ok_bind, hm] at hb
  have hb' : BN.isOne ((q % p) ^ (p / 2) % p) = b := by injection hb
  cases b with
  | true =>
    left
    obtain ⟨hnd, z, hz⟩ := hbs.1 rfl
    obtain ⟨s, hsq, hs0, hs1, hss⟩ := hs _ z hz
    have hsne : s ≠ 0 := by
      rintro rfl
      apply hnd
      have := Int.dvd_of_emod_eq_zero hss
      rw [show (0 : Int) * 0 - q % p = -(q % p) by ring] at this
      exact (Int.dvd_neg).1 this
    rw [sub_emod_mod] at hss
    refine ⟨by simpa [BN.isOne] using hb', s, by rw [hy2, h.hp]; exact hsq, ?_⟩
    by_cases hbit : BN.isBitSet s 0 = true
    · have hso := (isBitSet_zero hs0).1 hbit
      simp only [hbit, if_true, h.hp, Int.emod_eq_of_lt hs0 hs1]
      refine ⟨?_, by omega, by omega⟩
      rw [onCurve_iff, h.hp]
      refine ⟨hx0, hx1, by omega, by omega, ?_⟩
      have : ((p : Int) - s) * (p - s) - q = (s * s - q) + p * (p - 2 * s) := by ring
      rw [this, Int.add_mul_emod_self_left, hss]
    · simp only [if_neg hbit]
      have hse : s % 2 = 0 := by
        have := (isBitSet_zero hs0).not.1 hbit
        omega
      refine ⟨?_, hse, hsne⟩
      rw [onCurve_iff, h.hp]
      exact ⟨hx0, hx1, hs0, hs1, hss⟩
  | false =>
    right
    refine ⟨by simpa [BN.isOne] using hb', fun y hy => ?_⟩
    obtain ⟨-, -, y0, y1, hyq⟩ := (c.onCurve_iff _ _).1 hy
    rw [h.hp] at y1 hyq
    by_contra hne
    have hd : (p : Int) ∣ q % p := by
      by_contra hnd
      have := hbs.2 ⟨hnd, y, by rw [sub_emod_mod]; exact hyq⟩
      cases this
    have hq' : (p : Int) ∣ q := by
      rw [Int.dvd_iff_emod_eq_zero] at hd ⊢
      rwa [Int.emod_emod] at hd
    have hyy : (p : Int) ∣ y * y := by
      have := Int.dvd_add (Int.dvd_of_emod_eq_zero hyq) hq'
      rwa [show y * y - (x * x * x + c.a * x + c.b) + q = y * y by rw [hq]; ring] at this
    have hdy : (p : Int) ∣ y := by
      rcases (Nat.prime_iff_prime_int.1 h.prime).dvd_or_dvd hyy with h | h <;> exact h
    have := Int.le_of_dvd (by omega) hdy
    omega

theorem py_loop {c : Curve} {p : Nat} (h : c.Proper p) (hbits : BN.bitLength c.p ≤ 4096)
    {sqrt : BigNum → BigNum → Res BigNum} (hs : SqrtOk sqrt p) (L : Py.Lib)
    (hL : SqrtOk L.sqrt p) (H : Hashes) (hH : Sha2 H) (t : Hash) :
    ∀ (fuel : Nat) (arg : Py.Arg) (x : Int), Py.randomOracle H t.py arg c.p = .ok x →
      0 ≤ x → x < p →
      ((∃ y, y ≠ 0 ∧ c.onCurve 0 y = true) ∨ ∀ k, k < fuel → triedFrom H t c.p k x ≠ .ok 0) →
      (∃ x' y' P, Py.hashToCurve L c H t.py fuel arg = some (.ok (x', y')) ∧
        Py.fromPoint c x' y' = .ok P ∧
        c.hashLoop sqrt (fun s => cppOracle H t s c.p) fuel x = some (.ok P)) ∨
      (Py.hashToCurve L c H t.py fuel arg = none ∧
        c.hashLoop sqrt (fun s => cppOracle H t s c.p) fuel x = none) := by
  intro fuel
  induction fuel with
  | zero => intro arg x _ _ _ _; right; exact ⟨rfl, rfl⟩
  | succ fuel ih =>
    intro arg x harg hx0 hx1 h0
    have hxm : x % (p : Int) = x := Int.emod_eq_of_lt hx0 hx1
    have hcpp := h.hashInternal_spec hs x
    rw [hxm] at hcpp
    obtain ⟨r, hr, hcase⟩ := py_round h L hL hx0 hx1
    rcases hcase with ⟨hr1, s, h1, h2, h3, h4⟩ | ⟨hr1, h2⟩
    · left
      have hpy : Py.hashToCurve L c H t.py (fuel + 1) arg =
          some (.ok (x, if BN.isBitSet s 0 then c.p - s % c.p else s)) := by
        simp only [Py.hashToCurve, harg, hr, hr1, if_true, h1]
        split <;> rfl
      generalize (if BN.isBitSet s 0 then c.p - s % c.p else s) = y at h2 h3 h4 hpy
      refine ⟨x, y, .aff x y, hpy, ?_, ?_⟩
      · simp [Py.fromPoint, h2, Py.checkValidity, isOnCurve, isAtInfinity]
      · rcases hcpp with ⟨y', hy', hon, hev, -⟩ | ⟨-, hz⟩
        · obtain ⟨-, -, a0, a1, a2⟩ := (c.onCurve_iff _ _).1 hon
          obtain ⟨-, -, b0, b1, b2⟩ := (c.onCurve_iff _ _).1 h2
          rw [h.hp] at a1 a2 b1 b2
          have : y' = y := root_unique h.prime h.odd a0 a1 b0 b1 a2 b2 (by rw [hev, h3])
          simp only [Curve.hashLoop, hy', this]
        · exact absurd (hz y h2) h4
    · have hint : c.hashInternal sqrt x = .err .internal := by
        rcases hcpp with ⟨y', -, hon, -, hne⟩ | ⟨he, -⟩
        · exact absurd (h2 y' hon) hne
        · exact he
      have hxpos : 0 < x := by
        rcases eq_or_lt_of_le hx0 with e | e
        · subst e
          exfalso
          rcases h0 with ⟨y, hy, hon⟩ | h0
          · exact hy (h2 y hon)
          · exact h0 0 (by omega) rfl
        · exact e
      obtain ⟨v, v0, v1, hc, -, -, hpy⟩ := oracles h hbits H hH t (BN.natToBytes x.toNat)
      have e1 : Py.hashToCurve L c H t.py (fuel + 1) arg =
          Py.hashToCurve L c H t.py fuel (.int x) := by
        simp only [Py.hashToCurve, harg, hr, if_neg hr1]
      have e2 : c.hashLoop sqrt (fun s => cppOracle H t s c.p) (fuel + 1) x =
          c.hashLoop sqrt (fun s => cppOracle H t s c.p) fuel v := by
        simp only [Curve.hashLoop, hint, BN.toBytes_of_nonneg hx0, Res.ok_bind, hc]
      rw [e1, e2]
      refine ih (.int x) v (hpy x hxpos rfl) v0 v1 ?_
      rcases h0 with h0 | h0
      · exact Or.inl h0
      · right
        intro k hk
        have := h0 (k + 1) (by omega)
        rwa [triedFrom, hc, Res.ok_bind] at this

/-- **C110, one point**.  On a curve without points of y-coordinate zero (every curve of
odd order), when some point has the x-coordinate zero, or zero is not among the
x-coordinates tried: for every string and every number of rounds, either all three
implementations have returned the same point, or none has returned. -/
theorem C110_same_point {c : Curve} {p : Nat} (h : c.Proper p) (hbits : BN.bitLength c.p ≤ 4096)
    {sqrt : BigNum → BigNum → Res BigNum} (hs : SqrtOk sqrt p) {bc : Int → Option Int}
    (hbc : BcSqrt bc p) (L : Py.Lib) (hL : SqrtOk L.sqrt p) (H : Hashes) (hH : Sha2 H)
    (t : Hash) (fuel : Nat) (m : Bytes) (hno : ∀ x, ¬ IsPoint c.p c.a c.b x 0)
    (h0 : (∃ y, IsPoint c.p c.a c.b 0 y) ∨ ∀ k, k < fuel → tried H t c.p m k ≠ .ok 0) :
    (∃ P, cppHash c H t sqrt fuel m = some (.ok P) ∧
      Java.hashIntoTheCurve c H t.java bc fuel m = some (.ok P) ∧
      Py.getPointByHashing L c H t.py fuel m = some (.ok P)) ∨
    (cppHash c H t sqrt fuel m = none ∧ Java.hashIntoTheCurve c H t.java bc fuel m = none ∧
      Py.getPointByHashing L c H t.py fuel m = none) := by
  have hpy : (∃ P, cppHash c H t sqrt fuel m = some (.ok P) ∧
        Py.getPointByHashing L c H t.py fuel m = some (.ok P)) ∨
      (cppHash c H t sqrt fuel m = none ∧ Py.getPointByHashing L c H t.py fuel m = none) := by
    obtain ⟨v, v0, v1, hc, -, hp, -⟩ := oracles h hbits H hH t m
    have h0' : (∃ y, y ≠ 0 ∧ c.onCurve 0 y = true) ∨
        ∀ k, k < fuel → triedFrom H t c.p k v ≠ .ok 0 := by
      rcases h0 with ⟨y, hy⟩ | h0
      · left
        refine ⟨y, ?_, (isPoint_iff c 0 y).2 hy⟩
        rintro rfl
        exact hno 0 hy
      · right
        intro k hk
        have := h0 k hk
        rwa [tried, hc, Res.ok_bind] at this
    rw [cppHash_eq]
    simp only [hashToCurve, hc]
    rcases py_loop h hbits hs L hL H hH t fuel (.bytes m) v hp v0 v1 h0' with
      ⟨x', y', P, g1, g2, g3⟩ | ⟨g1, g2⟩
    · exact Or.inl ⟨P, g3, by
        simp only [Py.getPointByHashing, g1, Option.map_some, Py.Out.ok_bind, g2]⟩
    · exact Or.inr ⟨g2, by simp only [Py.getPointByHashing, g1, Option.map_none]⟩
  rcases C110_java h hbits hs hbc H hH t fuel m with ⟨P, g1, g2⟩ | ⟨g1, g2, k, hk, g3⟩ | ⟨g1, g2⟩
  · rcases g2 with g2 | ⟨x, -, hx⟩
    · rcases hpy with ⟨Q, q1, q2⟩ | ⟨q1, -⟩
      · rw [g2] at q1
        cases q1
        exact Or.inl ⟨P, g2, g1, q2⟩
      · rw [g2] at q1; cases q1
    · exact absurd hx (hno x)
  · rcases h0 with ⟨y, hy⟩ | h0
    · exact absurd hy (g2 y)
    · exact absurd g3 (h0 k hk)
  · rcases hpy with ⟨Q, q1, -⟩ | ⟨-, q2⟩
    · rw [g2] at q1; cases q1
    · exact Or.inr ⟨g2, g1, q2⟩

/-- **C110, x-coordinate zero**.  On a curve without a point at x-coordinate zero, when the
oracle sends the string there, the implementations part: the C++ goes on as for the empty
string, Java fails with an index error, Python goes on as for one zero byte. -/
theorem C110_zero {c : Curve} {p : Nat} (h : c.Proper p) (hbits : BN.bitLength c.p ≤ 4096)
    {sqrt : BigNum → BigNum → Res BigNum} (hs : SqrtOk sqrt p) {bc : Int → Option Int}
    (hbc : BcSqrt bc p) (L : Py.Lib) (hL : SqrtOk L.sqrt p) (H : Hashes) (hH : Sha2 H)
    (t : Hash) (fuel : Nat) (m : Bytes) (hno : ∀ y, ¬ IsPoint c.p c.a c.b 0 y)
    (hm : cppOracle H t m c.p = .ok 0) :
    cppHash c H t sqrt (fuel + 1) m = cppHash c H t sqrt fuel [] ∧
    Java.hashIntoTheCurve c H t.java bc (fuel + 1) m = some (.throws .arrayIndex) ∧
    Py.getPointByHashing L c H t.py (fuel + 1) m = Py.getPointByHashing L c H t.py fuel [0] := by
  have hp0 : 0 < (p : Int) := by exact_mod_cast h.prime.pos
  simp only [← isPoint_iff] at hno
  obtain ⟨v, v0, v1, hc, hj, hp, -⟩ := oracles h hbits H hH t m
  obtain rfl : v = 0 := by rw [hm] at hc; injection hc with e; exact e.symm
  have hint : c.hashInternal sqrt 0 = .err .internal := by
    have := h.hashInternal_spec hs 0
    rw [Int.zero_emod] at this
    rcases this with ⟨y', -, hon, -⟩ | ⟨he, -⟩
    · exact absurd hon (hno y')
    · exact he
  refine ⟨?_, ?_, ?_⟩
  · obtain ⟨w, w0, w1, hw, -⟩ := oracles h hbits H hH t []
    have e0 : BN.toBytes 0 = .ok [] := rfl
    rw [cppHash_eq, cppHash_eq]
    simp only [hashToCurve, hc, hw, Curve.hashLoop, hint, e0, Res.ok_bind]
  · rcases java_round h hbc (le_refl 0) hp0 with ⟨s, -, h2, -⟩ | ⟨h1, -⟩
    · exact absurd h2 (hno _)
    · simp only [Java.hashIntoTheCurve, hj, Java.hashLoop, h1, Java.bigIntegerToByteArray_zero,
        Java.Out.throws_bind]
  · obtain ⟨r, hr, hcase⟩ := py_round h L hL (le_refl 0) hp0
    rcases hcase with ⟨-, s, -, h2, -⟩ | ⟨hr1, -⟩
    · exact absurd h2 (hno _)
    · have e : Py.randomOracle H t.py (.int 0) c.p = Py.randomOracle H t.py (.bytes [0]) c.p := by
        simp only [Py.randomOracle, Py.longToBytes_zero, Py.Out.ok_bind]
      have e2 : Py.hashToCurve L c H t.py fuel (.int 0) =
          Py.hashToCurve L c H t.py fuel (.bytes [0]) := by
        cases fuel with
        | zero => rfl
        | succ fuel => simp only [Py.hashToCurve, e]
      simp only [Py.getPointByHashing]
      rw [← e2]
      simp only [Py.hashToCurve, hp, hr, if_neg hr1]

/-! ### A concrete case -/

/-- A toy hash with SHA-2 lengths. -/
def toyByte (d : Bytes) : Byte :=
  if d = [1, 9] then 0 else if d = [1] then 5 else if d = [1, 0] then 6
  else if d = [1, 8] then 3 else if d = [1, 4] then 8 else 0

/-- Digests of the toy hash: zeros and one byte. -/
def toyHashes : Hashes where
  sha256 d := List.replicate 31 0 ++ [toyByte d]
  sha384 d := List.replicate 47 0 ++ [toyByte d]
  sha512 d := List.replicate 63 0 ++ [toyByte d]
  hmacSha512 _ d := List.replicate 63 0 ++ [toyByte d]

theorem toy_sha2 : Sha2 toyHashes :=
  ⟨fun _ => by simp [toyHashes], fun _ => by simp [toyHashes], fun _ => by simp [toyHashes]⟩

/-- A square root by search, as BouncyCastle might return it. -/
def searchBc (order : List Nat → List Nat) (p : Nat) (a : Int) : Option Int :=
  match searchSqrt order a p with
  | .ok s => some s
  | _ => none

theorem searchBc_ok (order : List Nat → List Nat) (horder : ∀ l x, x ∈ order l ↔ x ∈ l)
    {p : Nat} (hp : 0 < p) : BcSqrt (searchBc order p) p := by
  intro a
  by_cases hz : ∃ z : Int, (z * z - a) % p = 0
  · obtain ⟨z, hz⟩ := hz
    obtain ⟨s, h1, h2⟩ := searchSqrt_ok order horder hp a z hz
    exact Or.inl ⟨s, by simp only [searchBc, h1], h2⟩
  · right
    refine ⟨?_, fun z h => hz ⟨z, h⟩⟩
    simp only [searchBc, searchSqrt, Int.toNat_natCast]
    cases hf : (order (List.range p)).find?
        (fun z : Nat => decide (((z : Int) * z - a) % (p : Int) = 0)) with
    | none => rfl
    | some w => exact absurd ⟨(w : Int), by simpa using List.find?_some hf⟩ hz

/-- A library for the examples: it takes the largest root, any key, and its scalar
multiplication does not matter. -/
def toyLib : Py.Lib where
  oct2point := tiny.oct2point
  acceptsKey _ := true
  sqrt := searchSqrt List.reverse
  mul _ P := P
  infBytes := [0]

theorem toyLib_sqrt : SqrtOk toyLib.sqrt 7 :=
  searchSqrt_ok List.reverse (fun _ _ => List.mem_reverse) (by norm_num)

/-- The three oracles at work, on the bounds 7 (two digests) and 1000. -/
example : Sha2 toyHashes ∧ blocks .sha256 7 = 2 ∧
    cppOracle toyHashes .sha256 [8] 7 = .ok 3 ∧
    Java.randomOracle toyHashes .sha256 [8] 7 = .ok 3 ∧
    Py.randomOracle toyHashes .sha256 (.bytes [8]) 7 = .ok 3 ∧
    Py.randomOracle toyHashes .sha256 (.int 8) 7 = .ok 3 ∧
    blocks .sha512 (2 ^ 512) = 3 :=
  ⟨toy_sha2, by decide +kernel, by decide +kernel, by decide +kernel, by decide +kernel,
    by decide +kernel, by decide +kernel⟩

theorem bitLength_two_pow (n : Nat) : BN.bitLength (2 ^ n) = n + 1 := by
  have : ((2 : Int) ^ n).natAbs = 2 ^ n := by rw [Int.natAbs_pow]; rfl
  rw [BN.bitLength, this, Nat.size_pow]

/-- Bounds beyond the limits exist. -/
example : ∃ max : BigNum, 0 < max ∧ 130048 ≤ blocks .sha256 max * Hash.sha256.bits ∧
    255 < blocks .sha256 max := by
  have h : ∃ n : Nat, n = 130048 := ⟨_, rfl⟩
  obtain ⟨n, hn⟩ := h
  refine ⟨2 ^ n, pow_pos (by norm_num) _, ?_, ?_⟩ <;>
  · simp only [blocks, Ctx.iterCount, bitLength_two_pow, Hash.bits]
    omega

/-- A curve of odd order modulo 11: y^2 = x^3 + x + 5, 11 points. -/
def eleven : Curve := { p := 11, a := 1, b := 5, order := 11, fieldLen := 1 }

/-- The hypotheses of C110 are met: the curve has no point with y-coordinate zero and one
with x-coordinate zero; the string `[8]` is first sent to 4, which no point has, then to
7. -/
example : eleven.Proper 11 ∧ BN.bitLength eleven.p ≤ 4096 ∧
    (∀ x, ¬ IsPoint eleven.p eleven.a eleven.b x 0) ∧
    IsPoint eleven.p eleven.a eleven.b 0 4 ∧
    tried toyHashes .sha256 eleven.p [8] 0 = .ok 4 ∧
    tried toyHashes .sha256 eleven.p [8] 1 = .ok 7 ∧
    cppHash eleven toyHashes .sha256 (searchSqrt id) 2 [8] = some (.ok (.aff 7 6)) ∧
    Java.hashIntoTheCurve eleven toyHashes .sha256 (searchBc id 11) 2 [8] =
      some (.ok (.aff 7 6)) ∧
    Py.getPointByHashing toyLib eleven toyHashes .sha256 2 [8] = some (.ok (.aff 7 6)) := by
  refine ⟨⟨rfl, by norm_num, by norm_num, by norm_num [eleven]⟩, by decide +kernel, ?_,
    (isPoint_iff eleven 0 4).1 (by decide), by decide +kernel, by decide +kernel,
    by decide +kernel, by decide +kernel, by decide +kernel⟩
  intro x hx
  have := (isPoint_iff eleven x 0).2 hx
  obtain ⟨h0, h1, -⟩ := (eleven.onCurve_iff _ _).1 this
  simp only [eleven] at h1
  interval_cases x <;> revert this <;> decide

/-- **C110 fails as stated without the condition on zero**: a curve, a hash and a string
for which the C++ returns one point, Python another and Java none. -/
theorem C110_same_point_fails :
    tiny.Proper 7 ∧ Sha2 toyHashes ∧ SqrtOk (searchSqrt id) 7 ∧ BcSqrt (searchBc id 7) 7 ∧
    SqrtOk toyLib.sqrt 7 ∧
    cppHash tiny toyHashes .sha256 (searchSqrt id) 3 [9] = some (.ok (.aff 5 4)) ∧
    Java.hashIntoTheCurve tiny toyHashes .sha256 (searchBc id 7) 3 [9] =
      some (.throws .arrayIndex) ∧
    Py.getPointByHashing toyLib tiny toyHashes .sha256 3 [9] = some (.ok (.aff 6 4)) :=
  ⟨tiny_proper, toy_sha2, searchSqrt_ok id (fun _ _ => Iff.rfl) (by norm_num),
    searchBc_ok id (fun _ _ => Iff.rfl) (by norm_num), toyLib_sqrt, by decide +kernel,
    by decide +kernel, by decide +kernel⟩

/-- The hypotheses of `C110_zero` are met there. -/
example : cppOracle toyHashes .sha256 [9] tiny.p = .ok 0 ∧
    ∀ y, ¬ IsPoint tiny.p tiny.a tiny.b 0 y := by
  refine ⟨by decide +kernel, fun y hy => ?_⟩
  have := (isPoint_iff tiny 0 y).2 hy
  obtain ⟨-, -, h0, h1, -⟩ := (tiny.onCurve_iff _ _).1 this
  simp only [tiny] at h1
  interval_cases y <;> revert this <;> decide

end Interop
end PJC
