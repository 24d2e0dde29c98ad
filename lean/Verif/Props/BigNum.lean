import Verif.Lemmas.BigNum
import Verif.Lemmas.Exp
/-
Properties C32 (bytes) and C33 (modular operations).
-/
namespace PJC.Props
open PJC

/-! ### C32 -/

/-- C32: every nonnegative number serializes, parses back to itself, with no leading zero byte and
in as few bytes as possible. -/
theorem C32_bytes_round_trip (x : Int) (hx : 0 ≤ x) :
    ∃ bs, BN.toBytes x = .ok bs ∧ BN.ofBytes bs = x ∧ bs.head? ≠ some 0 ∧
      ∀ k : Nat, x < 256 ^ k → bs.length ≤ k := by
  refine ⟨BN.natToBytes x.toNat, BN.toBytes_of_nonneg hx, ?_, ?_, ?_⟩
  · rw [BN.ofBytes_natToBytes]; omega
  · intro h
    have hne : BN.natToBytes x.toNat ≠ [] := by
      intro h0; rw [h0] at h; simp at h
    have := BN.natToBytes_head _ hne
    rw [List.head?_eq_some_head hne] at h
    exact this (by simpa using h)
  · intro k hk
    apply BN.natToBytes_length_le
    have : ((x.toNat : Int)) < 256 ^ k := by omega
    exact_mod_cast this

/-- C32: serialization is injective on nonnegative numbers, and a negative number aborts. -/
theorem C32_bytes_injective (x y : Int) (bs : Bytes)
    (h1 : BN.toBytes x = .ok bs) (h2 : BN.toBytes y = .ok bs) : x = y ∧ 0 ≤ x := by
  unfold BN.toBytes at h1 h2
  split at h1
  · cases h1
  split at h2
  · cases h2
  cases h1
  have := BN.natToBytes_injective (Res.ok.inj h2)
  omega

theorem C32_negative_aborts (x : Int) (hx : x < 0) : BN.toBytes x = .crash := by
  simp [BN.toBytes, hx]

/-- C32, all byte strings: parsing any byte string and serializing the result gives the string
without its leading zero bytes. -/
theorem C32_parse_then_serialize (bs : Bytes) :
    BN.toBytes (BN.ofBytes bs) = .ok (bs.dropWhile (· = 0)) := by
  rw [BN.toBytes_of_nonneg (BN.ofBytes_nonneg bs)]
  congr 1
  -- induction with a leading part
  have key : ∀ (l : Bytes), l.head? ≠ some 0 → BN.natToBytes (BN.ofBytes l).toNat = l := by
    intro l hl
    -- both sides have the same value, no leading zeros
    have huniq : ∀ (a b : List Byte), a.getLast? ≠ some 0 → b.getLast? ≠ some 0 →
        a.foldr (fun b acc => acc * 256 + b.val) 0 = b.foldr (fun b acc => acc * 256 + b.val) 0 →
        a = b := by
      intro a
      induction a with
      | nil =>
        intro b _ hb h
        induction b with
        | nil => rfl
        | cons y ys ih =>
          exfalso
          simp only [List.foldr_nil, List.foldr_cons] at h
          have hy : y = 0 := Fin.ext (by simp only [Fin.val_zero]; omega)
          have hys : ys.foldr (fun b acc => acc * 256 + b.val) 0 = 0 := by omega
          cases ys with
          | nil => simp [hy] at hb
          | cons z zs =>
            have := ih (by simpa [List.getLast?_cons_cons] using hb) hys.symm
            cases this
      | cons x xs ihx =>
        intro b ha hb h
        cases b with
        | nil =>
          exfalso
          have hz : ∀ l : List Byte, l ≠ [] → l.getLast? ≠ some 0 →
              l.foldr (fun b acc => acc * 256 + b.val) 0 ≠ 0 := by
            intro l
            induction l with
            | nil => intro h; exact absurd rfl h
            | cons w ws ih =>
              intro _ hl hsum
              simp only [List.foldr_cons] at hsum
              have hw : w = 0 := Fin.ext (by simp only [Fin.val_zero]; omega)
              cases ws with
              | nil => simp [hw] at hl
              | cons z zs =>
                exact ih (by simp) (by simpa [List.getLast?_cons_cons] using hl) (by omega)
          exact hz (x :: xs) (by simp) ha (by simpa using h)
        | cons y ys =>
          simp only [List.foldr_cons] at h
          have hxl := x.isLt
          have hyl := y.isLt
          have hxy : x = y := Fin.ext (by omega)
          have hrest : xs.foldr (fun b acc => acc * 256 + b.val) 0
              = ys.foldr (fun b acc => acc * 256 + b.val) 0 := by omega
          subst hxy
          have h1 : xs.getLast? ≠ some 0 := by
            cases xs with
            | nil => simp
            | cons z zs => simpa [List.getLast?_cons_cons] using ha
          have h2 : ys.getLast? ≠ some 0 := by
            cases ys with
            | nil => simp
            | cons z zs => simpa [List.getLast?_cons_cons] using hb
          rw [ihx ys h1 h2 hrest]
    have h1 : (BN.natToBytes (BN.ofBytes l).toNat).reverse = l.reverse := by
      apply huniq
      · rw [List.getLast?_reverse]
        intro h
        have hne : BN.natToBytes (BN.ofBytes l).toNat ≠ [] := by
          intro h0; rw [h0] at h; simp at h
        have := BN.natToBytes_head _ hne
        rw [List.head?_eq_some_head hne] at h
        exact this (by simpa using h)
      · rw [List.getLast?_reverse]; exact hl
      · have e := BN.ofBytes_natToBytes (BN.ofBytes l).toNat
        have e2 : (((BN.ofBytes l).toNat : Int)) = BN.ofBytes l := by
          have := BN.ofBytes_nonneg l; omega
        rw [e2] at e
        unfold BN.ofBytes at e
        rw [List.foldr_reverse, List.foldr_reverse]
        exact_mod_cast e
    exact List.reverse_injective h1
  have hdrop : BN.ofBytes bs = BN.ofBytes (bs.dropWhile (· = 0)) := by
    induction bs with
    | nil => rfl
    | cons b bs ih =>
      rw [List.dropWhile_cons]
      split
      · rename_i h
        simp only [decide_eq_true_eq] at h
        subst h
        rw [← ih]
        simp [BN.ofBytes]
      · rfl
  rw [hdrop]
  apply key
  intro h
  have := List.head?_dropWhile_not (· = 0) bs
  rw [h] at this
  simp at this

example : BN.toBytes 1000 = .ok [3, 232] := by decide
example : BN.toBytes 0 = .ok [] := by decide
example : BN.toBytes (BN.ofBytes [0, 0, 7, 0]) = .ok [7, 0] := by decide

/-! ### C33 -/

/-- Specification: `r` is the least nonnegative residue of `x` modulo `m`. -/
def IsResidue (m x r : Int) : Prop := 0 ≤ r ∧ r < m ∧ (m ∣ x - r)

theorem isResidue_emod {m x : Int} (hm : 1 ≤ m) : IsResidue m x (x % m) :=
  ⟨Int.emod_nonneg _ (by omega), Int.emod_lt_of_pos _ (by omega), Int.dvd_self_sub_emod⟩

/-- C33 for the operations other than negation: for every modulus `m ≥ 1` and all integers they
succeed and return the right least residue; `ModInverse` returns the inverse when there is one and
INVALID_ARGUMENT when there is none. -/
theorem C33_modular_operations_partial (m : Int) (hm : 1 ≤ m) (a b : Int) :
    (∃ r, BN.mod a m = .ok r ∧ IsResidue m a r) ∧
    (∃ r, BN.modAdd a b m = .ok r ∧ IsResidue m (a + b) r) ∧
    (∃ r, BN.modSub a b m = .ok r ∧ IsResidue m (a - b) r) ∧
    (∃ r, BN.modMul a b m = .ok r ∧ IsResidue m (a * b) r) ∧
    (∃ r, BN.modSqr a m = .ok r ∧ IsResidue m (a * a) r) ∧
    (∀ e : Nat, ∃ r, BN.modExp a e m = .ok r ∧ IsResidue m (a ^ e) r) ∧
    ((∃ x, m ∣ a * x - 1) → ∃ r, BN.modInverse a m = .ok r ∧ 0 ≤ r ∧ r < m ∧ m ∣ a * r - 1) ∧
    ((¬ ∃ x, m ∣ a * x - 1) → BN.modInverse a m = .err .invalidArgument) := by
  have hm0 : m ≠ 0 := by omega
  refine ⟨⟨_, by simp [BN.mod, hm0], isResidue_emod hm⟩,
    ⟨_, by simp [BN.modAdd, BN.mod, hm0], isResidue_emod hm⟩,
    ⟨_, by simp [BN.modSub, BN.mod, hm0], isResidue_emod hm⟩,
    ⟨_, by simp [BN.modMul, BN.mod, hm0], isResidue_emod hm⟩,
    ⟨_, by simp [BN.modSqr, BN.mod, hm0], isResidue_emod hm⟩,
    fun e => ⟨_, by simp [BN.modExp, hm0], isResidue_emod hm⟩, ?_, ?_⟩
  · rintro ⟨x, k, hk⟩
    have hg : Int.gcd a m = 1 := by
      apply Int.isCoprime_iff_gcd_eq_one.1
      exact ⟨x, -k, by linarith⟩
    have hi := BN.inv_spec (by omega) hg
    exact ⟨_, BN.modInverse_ok (by omega) hg, hi.2.1, hi.2.2, hi.1.symm.dvd⟩
  · intro h
    have hg : Int.gcd a m ≠ 1 := by
      intro hg
      exact h ⟨_, (BN.inv_spec (by omega) hg).1.symm.dvd⟩
    simp [BN.modInverse, hg]

/-- C33, negation, the part that holds: on zero and on every integer that is not a multiple of the
modulus `ModNegate` returns the residue of the negation. -/
theorem C33_mod_negate_partial (m : Int) (hm : 1 ≤ m) (a : Int) (h : a = 0 ∨ ¬ m ∣ a) :
    ∃ r, BN.modNegate a m = .ok r ∧ IsResidue m (-a) r := by
  by_cases h0 : a = 0
  · subst h0
    exact ⟨0, by simp [BN.modNegate], by refine ⟨le_refl _, by omega, by simp⟩⟩
  · have hd : ¬ m ∣ a := by tauto
    refine ⟨m - a % m, by simp [BN.modNegate, h0, BN.mod, show m ≠ 0 by omega], ?_⟩
    have h1 := Int.emod_nonneg a (show m ≠ 0 by omega)
    have h2 := Int.emod_lt_of_pos a (show 0 < m by omega)
    have h3 : a % m ≠ 0 := fun hc => hd (Int.dvd_of_emod_eq_zero hc)
    refine ⟨by omega, by omega, ?_⟩
    obtain ⟨k, hk⟩ := Int.dvd_self_sub_emod (x := a) (m := m)
    exact ⟨-k - 1, by linarith⟩

/-- C33 fails for `ModNegate`: on every nonzero multiple of the modulus it returns the modulus
itself, which is not a reduced residue. -/
theorem C33_mod_negate_fails (m k : Int) (hm : 1 ≤ m) (hk : k ≠ 0) :
    BN.modNegate (k * m) m = .ok m ∧ ¬ IsResidue m (-(k * m)) m := by
  have h0 : k * m ≠ 0 := mul_ne_zero hk (by omega)
  refine ⟨?_, fun h => lt_irrefl _ h.2.1⟩
  unfold BN.modNegate
  rw [if_neg h0]
  simp [BN.mod, show m ≠ 0 by omega]

example : BN.modNegate 7 7 = .ok 7 := by decide
example : BN.modNegate (-3) 7 = .ok 3 := by decide
example : BN.modInverse (-3) 7 = .ok 2 := by decide
example : ¬ (7 : Int) ∣ -3 := by decide

end PJC.Props
