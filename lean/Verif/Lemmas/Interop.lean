import Verif.Lemmas.Weierstrass
import Verif.Props.Context
import Verif.Props.BigNum
import Verif.Model.JavaCipher
import Verif.Model.PyCipher
/-
Facts about the number conversions of the Java and Python implementations.
-/
namespace PJC

/-! ### Java -/
namespace Java

theorem stripZeros_append (n : Nat) (bs : Bytes) :
    stripZeros (List.replicate n 0 ++ bs) = stripZeros bs := by
  induction n with
  | zero => rfl
  | succ n ih => simpa [List.replicate_succ, stripZeros] using ih

theorem bigIntegerToByteArray_zero : bigIntegerToByteArray 0 = .throws .arrayIndex := by decide

theorem bigIntegerToByteArray_pos {n : Int} (hn : 0 < n) :
    bigIntegerToByteArray n = .ok (BN.natToBytes n.toNat) := by
  have hk : n % 256 ^ (bitLength n / 8 + 1) = n := by
    apply Int.emod_eq_of_lt (le_of_lt hn)
    have h1 : n.toNat < 2 ^ bitLength n := by
      rw [bitLength, if_pos (le_of_lt hn)]
      exact Nat.lt_size_self _
    have h2 : n.toNat < 256 ^ (bitLength n / 8 + 1) := by
      refine lt_of_lt_of_le h1 ?_
      rw [show (256 : Nat) = 2 ^ 8 by norm_num, ← pow_mul]
      exact Nat.pow_le_pow_right (by norm_num) (by omega)
    have h3 : ((n.toNat : Nat) : Int) < ((256 ^ (bitLength n / 8 + 1) : Nat) : Int) := by
      exact_mod_cast h2
    push_cast at h3
    omega
  simp only [bigIntegerToByteArray, toByteArray, hk, Curve.padTo, stripZeros_append]
  cases hb : BN.natToBytes n.toNat with
  | nil =>
    have : n.toNat = 0 := BN.natToBytes_injective (by rw [hb, BN.natToBytes_zero])
    omega
  | cons b rest =>
    have := BN.natToBytes_head n.toNat (by rw [hb]; simp)
    simp only [hb, List.head_cons] at this
    simp [stripZeros, this]

theorem byteArrayToBigInteger_eq (bs : Bytes) : byteArrayToBigInteger bs = BN.ofBytes bs := by
  simp [byteArrayToBigInteger, ofTwosComplement, BN.ofBytes]

theorem bitLength_eq {n : Int} (hn : 0 ≤ n) : bitLength n = BN.bitLength n := by
  rw [bitLength, if_pos hn, BN.bitLength]
  congr 1
  omega

theorem oracleLoop_ok (h : Bytes → Bytes) (len : Nat) (x : Bytes) :
    ∀ (n i : Nat) (acc : Int), 0 < i →
      oracleLoop h len x n i acc = .ok (Ctx.oracleLoop h len x n i acc) := by
  intro n
  induction n with
  | zero => intros; rfl
  | succ n ih =>
    intro i acc hi
    have := ih (i + 1) (acc * 2 ^ len + BN.ofBytes (h (BN.natToBytes i ++ x))) (by omega)
    push_cast at this
    simp only [oracleLoop, bigIntegerToByteArray_pos (show 0 < (i : Int) by omega),
      Int.toNat_natCast, Out.ok_bind, byteArrayToBigInteger_eq, this, Ctx.oracleLoop,
      Ctx.oracleInput]

end Java

/-! ### Python -/
namespace Py

theorem ofBytes_packUnit {u : Nat} (hu : u < 2 ^ 32) : BN.ofBytes (packUnit u) = (u : Int) := by
  simp only [packUnit, BN.ofBytes, List.foldl_cons, List.foldl_nil, Fin.val_ofNat]
  norm_cast
  omega

theorem units_spec : ∀ (fuel n : Nat) (acc : List Nat), n ≤ fuel →
    BN.ofBytes ((units fuel n acc).flatMap packUnit) =
      (n : Int) * 2 ^ (acc.length * 32) + BN.ofBytes (acc.flatMap packUnit) := by
  have hlen : ∀ l : List Nat, (l.flatMap packUnit).length = l.length * 4 := by
    intro l
    induction l with
    | nil => rfl
    | cons a l ih => simp [packUnit, ih]; ring
  intro fuel
  induction fuel with
  | zero =>
    intro n acc hn
    have : n = 0 := by omega
    subst this
    simp [units]
  | succ fuel ih =>
    intro n acc hn
    by_cases h0 : n = 0
    · subst h0; simp [units]
    · rw [units, if_pos h0, ih _ _ (by omega), List.flatMap_cons, ofBytes_append,
        ofBytes_packUnit (Nat.mod_lt _ (by norm_num)), hlen, List.length_cons]
      have h : (n : Int) = (n / 2 ^ 32 : Nat) * 2 ^ 32 + (n % 2 ^ 32 : Nat) := by
        have := Nat.div_add_mod n (2 ^ 32)
        push_cast
        omega
      conv_rhs => rw [h]
      rw [show acc.length * 4 * 8 = acc.length * 32 by ring,
        show (acc.length + 1) * 32 = acc.length * 32 + 32 by ring, pow_add]
      ring

theorem ofBytes_zero_cons (bs : Bytes) : BN.ofBytes (0 :: bs) = BN.ofBytes bs := by
  simp [BN.ofBytes]

theorem dropZeros_spec (bs : Bytes) :
    BN.ofBytes (dropZeros bs) = BN.ofBytes bs ∧
    (BN.ofBytes bs ≠ 0 → (dropZeros bs).head? ≠ some 0) ∧
    (BN.ofBytes bs = 0 → dropZeros bs = [0]) := by
  induction bs with
  | nil => simp [dropZeros, BN.ofBytes]
  | cons b rest ih =>
    by_cases hb : b = 0
    · subst hb
      simpa [dropZeros, ofBytes_zero_cons] using ih
    · refine ⟨by simp [dropZeros, hb], fun _ => by simp [dropZeros, hb], fun h => ?_⟩
      exfalso
      have h1 := ofBytes_append [b] rest
      rw [List.singleton_append, h] at h1
      have h2 := BN.ofBytes_nonneg rest
      have h3 : 0 < BN.ofBytes [b] := by
        have : b.val ≠ 0 := fun h => hb (Fin.ext h)
        simp only [BN.ofBytes, List.foldl_cons, List.foldl_nil]
        omega
      have h4 : (0 : Int) < BN.ofBytes [b] * 2 ^ (rest.length * 8) :=
        mul_pos h3 (pow_pos (by norm_num) _)
      omega

/-- A byte string without leading zeros is the minimal encoding of its value. -/
theorem natToBytes_of_head {bs : Bytes} (h : bs.head? ≠ some 0) :
    BN.natToBytes (BN.ofBytes bs).toNat = bs := by
  have := Props.C32_parse_then_serialize bs
  rw [BN.toBytes_of_nonneg (BN.ofBytes_nonneg bs)] at this
  rw [Res.ok.inj this]
  cases bs with
  | nil => rfl
  | cons b rest => simp only [List.head?_cons, ne_eq, Option.some.injEq] at h; simp [h]

theorem longToBytes_zero : longToBytes 0 = .ok [0] := by decide

theorem longToBytes_pos {n : Int} (hn : 0 < n) : longToBytes n = .ok (BN.natToBytes n.toNat) := by
  have h1 := units_spec n.toNat n.toNat [] (le_refl _)
  simp only [List.length_nil, zero_mul, pow_zero, mul_one, List.flatMap_nil] at h1
  rw [show BN.ofBytes [] = 0 from rfl, add_zero] at h1
  obtain ⟨h2, h3, -⟩ := dropZeros_spec ((units n.toNat n.toNat []).flatMap packUnit)
  have h4 := natToBytes_of_head (h3 (by omega))
  rw [h2, h1, Int.toNat_natCast] at h4
  simp only [longToBytes, if_neg (not_lt.2 (le_of_lt hn)), lt_irrefl, if_false]
  rw [h4]

theorem longToBytes_neg {n : Int} (hn : n < 0) (b : Nat) :
    longToBytes n b = .raises .valueError := by simp [longToBytes, hn]

theorem ofBytes_padZeroBytes (bs : Bytes) (k : Nat) :
    BN.ofBytes (padZeroBytes bs k) = BN.ofBytes bs := by
  unfold padZeroBytes
  split
  · have := Curve.ofBytes_padTo (k - bs.length % k + bs.length) bs
    rwa [Curve.padTo, Nat.add_sub_cancel] at this
  · rfl

theorem padZeroBytes_length (bs : Bytes) {k : Nat} (hk : 0 < k) :
    k ∣ (padZeroBytes bs k).length := by
  unfold padZeroBytes
  have h1 := Nat.mod_lt bs.length hk
  have h2 := Nat.div_add_mod bs.length k
  split
  · rw [List.length_append, List.length_replicate]
    refine ⟨bs.length / k + 1, ?_⟩
    rw [Nat.mul_add]
    omega
  · rename_i h
    exact Nat.dvd_of_mod_eq_zero (by omega)

theorem unpackUnits_spec : ∀ (n : Nat) (bs : Bytes), bs.length = n * 4 →
    (unpackUnits bs).length = n ∧ ((sumUnits (unpackUnits bs) : Nat) : Int) = BN.ofBytes bs := by
  intro n
  induction n with
  | zero =>
    intro bs h
    have : bs = [] := List.eq_nil_of_length_eq_zero (by omega)
    subst this
    exact ⟨rfl, rfl⟩
  | succ n ih =>
    intro bs h
    match bs, h with
    | a :: b :: c :: d :: rest, h =>
      have hr : rest.length = n * 4 := by simp only [List.length_cons] at h; omega
      obtain ⟨h1, h2⟩ := ih rest hr
      refine ⟨by simp [unpackUnits, h1], ?_⟩
      have h3 := ofBytes_append [a, b, c, d] rest
      simp only [List.cons_append, List.nil_append] at h3
      rw [h3, ← h2, hr, unpackUnits, sumUnits, h1]
      have h4 : BN.ofBytes [a, b, c, d] =
          ((a.val * 2 ^ 24 + b.val * 2 ^ 16 + c.val * 2 ^ 8 + d.val : Nat) : Int) := by
        have e : ((((0 * 256 + a.val) * 256 + b.val) * 256 + c.val) * 256 + d.val : Nat) =
            a.val * 2 ^ 24 + b.val * 2 ^ 16 + c.val * 2 ^ 8 + d.val := by
          clear h3
          generalize a.val = a
          generalize b.val = b
          generalize c.val = c
          generalize d.val = d
          omega
        rw [← e]
        rfl
      rw [h4]
      push_cast
      rw [show n * 4 * 8 = 32 * n by ring]
    | [], h | [_], h | [_, _], h | [_, _, _], h =>
      simp only [List.length_cons, List.length_nil] at h; omega

theorem bytesToLong_eq (bs : Bytes) : bytesToLong bs = BN.ofBytes bs := by
  obtain ⟨n, hn⟩ := padZeroBytes_length bs (k := 4) (by norm_num)
  rw [bytesToLong, (unpackUnits_spec n _ (by omega)).2, ofBytes_padZeroBytes]

/-- The C++ digest of a Python hash type. -/
def HashType.digest (H : Hashes) : HashType → Bytes → Bytes
  | .sha256 => H.sha256
  | .sha384 => H.sha384
  | .sha512 => H.sha512

theorem hash_eq (H : Hashes) (t : HashType) (d : Bytes) :
    ((t.hash H d : Nat) : Int) = BN.ofBytes (t.digest H d) := by
  have := BN.ofBytes_nonneg (t.digest H d)
  cases t <;> simp only [HashType.hash, HashType.digest] at this ⊢ <;> omega

theorem oracleLoop_ok (H : Hashes) (t : HashType) (hh : ∀ d, (t.digest H d).length * 8 = t.bits)
    (x : Bytes) : ∀ (n i acc : Nat), 0 < i → ∃ v : Nat,
      oracleLoop H t x n i acc = .ok v ∧
      (v : Int) = Ctx.oracleLoop (t.digest H) t.bits x n i acc := by
  intro n
  induction n with
  | zero => intro i acc _; exact ⟨acc, rfl, rfl⟩
  | succ n ih =>
    intro i acc hi
    set d := BN.natToBytes i ++ x with hd
    have hlt : t.hash H d < 2 ^ t.bits := by
      have h1 := BN.ofBytes_lt (t.digest H d)
      rw [← hash_eq] at h1
      have h2 := hh d
      have h3 : (256 : Int) ^ (t.digest H d).length = ((2 ^ t.bits : Nat) : Int) := by
        rw [← h2, mul_comm, pow_mul]; norm_num
      rw [h3] at h1
      exact_mod_cast h1
    have hor : (acc <<< t.bits) ||| t.hash H d = acc * 2 ^ t.bits + t.hash H d := by
      rw [← Nat.shiftLeft_add_eq_or_of_lt hlt, Nat.shiftLeft_eq]
    obtain ⟨v, hv1, hv2⟩ := ih (i + 1) (acc * 2 ^ t.bits + t.hash H d) (by omega)
    refine ⟨v, ?_, ?_⟩
    · rw [oracleLoop, longToBytes_pos (show 0 < (i : Int) by omega), Out.ok_bind,
        Int.toNat_natCast, ← hd, hor]
      exact hv1
    · rw [hv2, Ctx.oracleLoop, Ctx.oracleInput, ← hash_eq]
      push_cast
      rfl

end Py
end PJC
