import Mathlib.NumberTheory.LegendreSymbol.Basic
import Mathlib.Data.Nat.Factorization.Basic
import Mathlib.Data.ZMod.QuotientRing
import Verif.Lemmas.Prob
import Verif.Lemmas.BbView
import Verif.Props.Paillier
/-
Products of two safe primes: squares of most units have the order `(p-1)(q-1)/4`, and a multiple of
that number gives the factors.
-/
namespace PJC.SafeFactor
open PJC.Prob PJC.Props Classical

/-- A unit modulo `p q` as a pair of units. -/
noncomputable def split {p q : Nat} (h : p.Coprime q) : (ZMod (p * q))ˣ ≃ (ZMod p)ˣ × (ZMod q)ˣ :=
  ((Units.mapEquiv (ZMod.chineseRemainder h).toMulEquiv).trans MulEquiv.prodUnits).toEquiv

theorem split_fst {p q : Nat} [NeZero (p * q)] (h : p.Coprime q) (x : (ZMod (p * q))ˣ) :
    ((split h x).1 : ZMod p) = ((x.val.val : Nat) : ZMod p) := by
  have e : ZMod.chineseRemainder h x.val =
      ZMod.chineseRemainder h ((x.val.val : Nat) : ZMod (p * q)) := by rw [ZMod.natCast_zmod_val]
  show (ZMod.chineseRemainder h x.val).1 = _
  rw [e, map_natCast]
  simp

theorem split_snd {p q : Nat} [NeZero (p * q)] (h : p.Coprime q) (x : (ZMod (p * q))ˣ) :
    ((split h x).2 : ZMod q) = ((x.val.val : Nat) : ZMod q) := by
  have e : ZMod.chineseRemainder h x.val =
      ZMod.chineseRemainder h ((x.val.val : Nat) : ZMod (p * q)) := by rw [ZMod.natCast_zmod_val]
  show (ZMod.chineseRemainder h x.val).2 = _
  rw [e, map_natCast]
  simp

/-- Half of the units have the power `(p-1)/2` equal to 1. -/
theorem half_one {p : Nat} [hp : Fact p.Prime] (h2 : p ≠ 2) :
    prob (fun a : (ZMod p)ˣ => a ^ (p / 2) = 1) = 1 / 2 := by
  obtain ⟨b, hb⟩ := FiniteField.exists_nonsquare (F := ZMod p) (by rwa [ZMod.ringChar_zmod_n])
  have hb0 : b ≠ 0 := by rintro rfl; exact hb ⟨0, by simp⟩
  have hb1 : b ^ (p / 2) = -1 := by
    rcases ZMod.pow_div_two_eq_neg_one_or_one p hb0 with h | h
    · exact absurd ((ZMod.euler_criterion p hb0).2 h) hb
    · exact h
  let u : (ZMod p)ˣ := Units.mk0 b hb0
  have hu : u ^ (p / 2) = -1 := Units.ext (by simpa [u] using hb1)
  have hne : (-1 : (ZMod p)ˣ) ≠ 1 := by
    intro h
    have := congrArg Units.val h
    simp only [Units.val_neg, Units.val_one] at this
    have hf : Fact (2 < p) := ⟨lt_of_le_of_ne hp.out.two_le (Ne.symm h2)⟩
    exact ZMod.neg_one_ne_one this
  have hdich : ∀ a : (ZMod p)ˣ, a ^ (p / 2) = 1 ∨ a ^ (p / 2) = -1 := by
    intro a
    rcases ZMod.pow_div_two_eq_neg_one_or_one p a.ne_zero with h | h
    · exact Or.inl (Units.ext (by simpa using h))
    · exact Or.inr (Units.ext (by simpa using h))
  have e : prob (fun a : (ZMod p)ˣ => ¬ a ^ (p / 2) = 1) = prob (fun a : (ZMod p)ˣ => a ^ (p / 2) = 1) := by
    rw [← prob_equiv (Equiv.mulLeft u) fun a : (ZMod p)ˣ => a ^ (p / 2) = 1]
    apply prob_congr
    intro a
    simp only [Equiv.coe_mulLeft, mul_pow, hu]
    rcases hdich a with h | h
    · simp [h, hne]
    · simp [h, hne]
  have := prob_add_prob_not fun a : (ZMod p)ˣ => a ^ (p / 2) = 1
  rw [e] at this
  linarith

/-- At most two of the units have the square 1. -/
theorem square_one {p : Nat} [hp : Fact p.Prime] (h2 : p % 2 = 1) :
    prob (fun a : (ZMod p)ˣ => a ^ 2 = 1) ≤ 1 / (p / 2 : ℕ) := by
  unfold prob
  have hc : (Finset.univ.filter fun a : (ZMod p)ˣ => a ^ 2 = 1).card ≤ 2 := by
    refine (Finset.card_le_card (t := {1, -1}) fun a ha => ?_).trans Finset.card_le_two
    have h : a ^ 2 = 1 := by simpa using ha
    have h' : (a : ZMod p) ^ 2 = 1 := by
      have := congrArg Units.val h
      simpa using this
    have h3 : (a : ZMod p) * a = 1 := by rw [← sq]; exact h'
    rw [Finset.mem_insert, Finset.mem_singleton]
    rcases mul_self_eq_one_iff.1 h3 with h | h
    · exact Or.inl (Units.ext h)
    · exact Or.inr (Units.ext h)
  rw [ZMod.card_units]
  have hpp : (2 : ℚ) * (p / 2 : ℕ) = (p - 1 : ℕ) := by
    have : 2 * (p / 2) = p - 1 := by omega
    exact_mod_cast this
  have hpos : (0 : ℚ) < (p / 2 : ℕ) := by
    have := hp.out.two_le
    exact_mod_cast (by omega : 0 < p / 2)
  rw [← hpp, div_le_div_iff₀ (by positivity) hpos]
  have : ((Finset.univ.filter fun a : (ZMod p)ˣ => a ^ 2 = 1).card : ℚ) ≤ 2 := by exact_mod_cast hc
  nlinarith

theorem split_pow {p q : Nat} (h : p.Coprime q) (x : (ZMod (p * q))ˣ) (m : Nat) :
    split h (x ^ m) = split h x ^ m := by
  unfold split
  rw [MulEquiv.toEquiv_eq_coe, MulEquiv.coe_toEquiv]
  exact map_pow _ x m

/-- What holds of both primes. -/
structure Safe2 (p q : Nat) : Prop where
  left : SafePrime p
  right : SafePrime q
  ne : p ≠ q
  bigL : 5 < p
  bigR : 5 < q

section
variable {p q : Nat}

theorem Safe2.symm (h : Safe2 p q) : Safe2 q p := ⟨h.right, h.left, h.ne.symm, h.bigR, h.bigL⟩

theorem Safe2.coprime (h : Safe2 p q) : p.Coprime q :=
  (Nat.coprime_primes h.left.1 h.right.1).2 h.ne

theorem Safe2.coprime' (h : Safe2 p q) : (p / 2).Coprime (q / 2) := by
  refine (Nat.coprime_primes h.left.2.2 h.right.2.2).2 fun e => h.ne ?_
  have := h.left.2.1
  have := h.right.2.1
  omega

theorem Safe2.pos (h : Safe2 p q) : 0 < p / 2 * (q / 2) :=
  Nat.mul_pos h.left.2.2.pos h.right.2.2.pos

theorem Safe2.odd (h : Safe2 p q) : Odd (p / 2) := by
  have := h.bigL
  refine h.left.2.2.odd_of_ne_two ?_
  have := h.left.2.1
  omega

/-- The square of the unit is 1 modulo neither prime. -/
def GoodBase (p q x : Nat) : Prop := (x : ZMod p) ^ 2 ≠ 1 ∧ (x : ZMod q) ^ 2 ≠ 1

theorem bad_rare [NeZero (p * q)] (h : Safe2 p q) :
    prob (fun x : (ZMod (p * q))ˣ => ¬ GoodBase p q x.val.val) ≤
      1 / (p / 2 : ℕ) + 1 / (q / 2 : ℕ) := by
  haveI : Fact p.Prime := ⟨h.left.1⟩
  haveI : Fact q.Prime := ⟨h.right.1⟩
  have e : ∀ x : (ZMod (p * q))ˣ, (¬ GoodBase p q x.val.val) ↔
      ((split h.coprime x).1 ^ 2 = 1 ∨ (split h.coprime x).2 ^ 2 = 1) := by
    intro x
    unfold GoodBase
    rw [Units.ext_iff, Units.ext_iff, Units.val_pow_eq_pow_val, Units.val_pow_eq_pow_val, split_fst,
      split_snd]
    simp only [Units.val_one]
    tauto
  rw [prob_congr e, prob_equiv (split h.coprime) fun t => t.1 ^ 2 = 1 ∨ t.2 ^ 2 = 1]
  refine (prob_or_le _ _).trans (add_le_add ?_ ?_)
  · rw [prob_fst fun a : (ZMod p)ˣ => a ^ 2 = 1]
    exact square_one h.left.2.1
  · rw [prob_snd fun a : (ZMod q)ˣ => a ^ 2 = 1]
    exact square_one h.right.2.1

/-- The unit is a square modulo one of the primes only. -/
def OneSided (p q z : Nat) : Prop := ¬ ((z : ZMod p) ^ (p / 2) = 1 ↔ (z : ZMod q) ^ (q / 2) = 1)

theorem one_sided [NeZero (p * q)] (h : Safe2 p q) :
    prob (fun z : (ZMod (p * q))ˣ => OneSided p q z.val.val) = 1 / 2 := by
  haveI : Fact p.Prime := ⟨h.left.1⟩
  haveI : Fact q.Prime := ⟨h.right.1⟩
  have e : ∀ x : (ZMod (p * q))ˣ, OneSided p q x.val.val ↔
      ¬ ((split h.coprime x).1 ^ (p / 2) = 1 ↔ (split h.coprime x).2 ^ (q / 2) = 1) := by
    intro x
    unfold OneSided
    rw [Units.ext_iff, Units.ext_iff, Units.val_pow_eq_pow_val, Units.val_pow_eq_pow_val, split_fst,
      split_snd]
    simp only [Units.val_one]
  rw [prob_congr e, prob_equiv (split h.coprime) fun t => ¬ (t.1 ^ (p / 2) = 1 ↔ t.2 ^ (q / 2) = 1),
    prob_prod fun (a : (ZMod p)ˣ) (b : (ZMod q)ˣ) => ¬ (a ^ (p / 2) = 1 ↔ b ^ (q / 2) = 1)]
  have hb := half_one (p := q) (by have := h.bigR; omega)
  have key : ∀ a : (ZMod p)ˣ, prob (fun b : (ZMod q)ˣ => ¬ (a ^ (p / 2) = 1 ↔ b ^ (q / 2) = 1)) =
      1 / 2 := by
    intro a
    by_cases ha : a ^ (p / 2) = 1
    · have := prob_add_prob_not fun b : (ZMod q)ˣ => b ^ (q / 2) = 1
      rw [hb] at this
      have e : prob (fun b : (ZMod q)ˣ => ¬ (a ^ (p / 2) = 1 ↔ b ^ (q / 2) = 1)) =
          prob (fun b : (ZMod q)ˣ => ¬ b ^ (q / 2) = 1) := prob_congr fun b => by simp [ha]
      rw [e]
      linarith
    · rw [← hb]
      exact prob_congr fun b => by simp [ha]
  rw [Finset.sum_congr rfl fun a _ => key a, Finset.sum_const, Finset.card_univ, nsmul_eq_mul]
  have : (Fintype.card (ZMod p)ˣ : ℚ) ≠ 0 := by exact_mod_cast Fintype.card_ne_zero
  field_simp

/-- The part of a number without factors 2. -/
def oddPart (a : Nat) : Nat := a / 2 ^ a.factorization 2

theorem oddPart_dvd {a m : Nat} (hm : Odd m) (h : m ∣ a) : m ∣ oddPart a := by
  have h1 : 2 ^ a.factorization 2 * oddPart a = a := Nat.ordProj_mul_ordCompl_eq_self a 2
  rw [← h1] at h
  exact (Nat.Coprime.pow_right _ (Nat.coprime_two_right.2 hm)).dvd_of_dvd_mul_left h

theorem oddPart_odd {a : Nat} (ha : a ≠ 0) : Odd (oddPart a) := by
  rw [← Nat.not_even_iff_odd, even_iff_two_dvd]
  exact Nat.not_dvd_ordCompl Nat.prime_two ha

/-- The power with an odd multiple of `(p-1)/2` is 1 exactly if that with `(p-1)/2` is. -/
theorem pow_sign {p : Nat} [hp : Fact p.Prime] {z : ZMod p} (hz : z ≠ 0) {e : Nat} (he : Odd e)
    (h : p / 2 ∣ e) : z ^ e = z ^ (p / 2) := by
  obtain ⟨j, rfl⟩ := h
  have hj : Odd j := (Nat.odd_mul.1 he).2
  rw [pow_mul]
  rcases ZMod.pow_div_two_eq_neg_one_or_one p hz with h | h
  · rw [h, one_pow]
  · rw [h, hj.neg_one_pow]

theorem factor_side {z e : Nat} (h : Safe2 p q) (hzp : (z : ZMod p) ^ e = 1) (hzq : (z : ZMod q) ^ e ≠ 1) :
    1 < Int.gcd ((z : Int) ^ e % (p * q : ℕ) - 1) (p * q : ℕ) ∧
      Int.gcd ((z : Int) ^ e % (p * q : ℕ) - 1) (p * q : ℕ) < p * q ∧
      Int.gcd ((z : Int) ^ e % (p * q : ℕ) - 1) (p * q : ℕ) ∣ p * q := by
  have hn : 0 < p * q := Nat.mul_pos h.left.1.pos h.right.1.pos
  have hd : Int.gcd ((z : Int) ^ e % (p * q : ℕ) - 1) (p * q : ℕ) ∣ p * q := by
    have := Int.gcd_dvd_right ((z : Int) ^ e % (p * q : ℕ) - 1) (p * q : ℕ)
    exact_mod_cast this
  have hp1 : (p : Int) ∣ (z : Int) ^ e % (p * q : ℕ) - 1 := by
    rw [← ZMod.intCast_zmod_eq_zero_iff_dvd]
    have h1 : (((z : Int) ^ e % (p * q : ℕ) : Int) : ZMod p) = (((z : Int) ^ e : Int) : ZMod p) := by
      rw [ZMod.intCast_eq_intCast_iff]
      exact (Int.mod_modEq _ _).of_dvd ⟨(q : Int), by push_cast; ring⟩
    rw [Int.cast_sub, h1]
    push_cast
    rw [hzp]
    ring
  have hq1 : ¬ (q : Int) ∣ (z : Int) ^ e % (p * q : ℕ) - 1 := by
    rw [← ZMod.intCast_zmod_eq_zero_iff_dvd]
    have h1 : (((z : Int) ^ e % (p * q : ℕ) : Int) : ZMod q) = (((z : Int) ^ e : Int) : ZMod q) := by
      rw [ZMod.intCast_eq_intCast_iff]
      exact (Int.mod_modEq _ _).of_dvd ⟨(p : Int), by push_cast; ring⟩
    rw [Int.cast_sub, h1]
    push_cast
    rw [sub_eq_zero]
    exact hzq
  have hpd : p ∣ Int.gcd ((z : Int) ^ e % (p * q : ℕ) - 1) (p * q : ℕ) := by
    have := Int.dvd_coe_gcd hp1 (⟨(q : Int), by push_cast; ring⟩ : (p : Int) ∣ ((p * q : ℕ) : Int))
    exact_mod_cast this
  refine ⟨?_, ?_, hd⟩
  · exact lt_of_lt_of_le h.left.1.one_lt (Nat.le_of_dvd (Nat.pos_of_dvd_of_pos hd hn) hpd)
  · refine lt_of_le_of_ne (Nat.le_of_dvd hn hd) fun e0 => hq1 ?_
    have := Int.gcd_dvd_left ((z : Int) ^ e % (p * q : ℕ) - 1) (p * q : ℕ)
    rw [e0] at this
    exact dvd_trans (⟨(p : Int), by push_cast; ring⟩ : (q : Int) ∣ ((p * q : ℕ) : Int)) this

/-- **A multiple of `(p-1)(q-1)/4` gives a factor**, with half of the units. -/
theorem factor_found [NeZero (p * q)] (h : Safe2 p q) {L : Nat} (hL : L ≠ 0)
    (hM : p / 2 * (q / 2) ∣ L) (z : (ZMod (p * q))ˣ) (hz : OneSided p q z.val.val) :
    1 < Int.gcd ((z.val.val : Int) ^ oddPart L % (p * q : ℕ) - 1) (p * q : ℕ) ∧
      Int.gcd ((z.val.val : Int) ^ oddPart L % (p * q : ℕ) - 1) (p * q : ℕ) < p * q ∧
      Int.gcd ((z.val.val : Int) ^ oddPart L % (p * q : ℕ) - 1) (p * q : ℕ) ∣ p * q := by
  haveI : Fact p.Prime := ⟨h.left.1⟩
  haveI : Fact q.Prime := ⟨h.right.1⟩
  have hdv := oddPart_dvd (h.odd.mul h.symm.odd) hM
  have ho := oddPart_odd hL
  have zp : ((z.val.val : Nat) : ZMod p) ≠ 0 := by
    rw [← split_fst h.coprime]; exact Units.ne_zero _
  have zq : ((z.val.val : Nat) : ZMod q) ≠ 0 := by
    rw [← split_snd h.coprime]; exact Units.ne_zero _
  have ep := pow_sign zp ho ((Dvd.intro _ rfl).trans hdv)
  have eq := pow_sign zq ho ((Dvd.intro_left _ rfl).trans hdv)
  unfold OneSided at hz
  rw [← ep, ← eq] at hz
  by_cases h1 : ((z.val.val : Nat) : ZMod p) ^ oddPart L = 1
  · exact factor_side h h1 fun h2 => hz ⟨fun _ => h2, fun _ => h1⟩
  · have h2 : ((z.val.val : Nat) : ZMod q) ^ oddPart L = 1 := by
      by_contra h2
      exact hz ⟨fun h => absurd h h1, fun h => absurd h h2⟩
    have := factor_side h.symm h2 h1
    rwa [mul_comm q p] at this

/-- The powers of the square repeat with the period `(p-1)(q-1)/4`. -/
theorem square_period [NeZero (p * q)] (h : Safe2 p q) (x : (ZMod (p * q))ˣ) :
    ((x.val.val : Int) ^ 2 % (p * q : ℕ)) ^ (p / 2 * (q / 2)) ≡ 1 [ZMOD (p * q : ℕ)] := by
  haveI : Fact p.Prime := ⟨h.left.1⟩
  haveI : Fact q.Prime := ⟨h.right.1⟩
  refine ((Int.mod_modEq _ _).pow _).trans ?_
  have e : x ^ (2 * (p / 2 * (q / 2))) = 1 := by
    apply (split h.coprime).injective
    have h1 : split h.coprime 1 = 1 := by
      have := split_pow h.coprime x 0
      rwa [pow_zero, pow_zero] at this
    rw [split_pow, h1]
    have a1 : 2 * (p / 2) = p - 1 := by have := h.left.2.1; omega
    have a2 : 2 * (q / 2) = q - 1 := by have := h.right.2.1; omega
    refine Prod.ext ?_ ?_
    · rw [Prod.pow_fst, ← mul_assoc, a1, pow_mul, ZMod.units_pow_card_sub_one_eq_one, one_pow]
      rfl
    · rw [Prod.pow_snd, mul_left_comm, a2, mul_comm (p / 2) (q - 1), pow_mul, ZMod.units_pow_card_sub_one_eq_one, one_pow]
      rfl
  rw [← ZMod.intCast_eq_intCast_iff]
  push_cast
  rw [ZMod.natCast_zmod_val, ← pow_mul, ← Units.val_pow_eq_pow_val, e]
  simp

theorem order_side {p x a b : Nat} (hp : SafePrime p) (h2 : (x : ZMod p) ^ 2 ≠ 1) (h0 : (x : ZMod p) ≠ 0)
    (h : ((x : ZMod p) ^ 2) ^ a = ((x : ZMod p) ^ 2) ^ b) : ((p / 2 : ℕ) : Int) ∣ (a : Int) - b := by
  haveI : Fact p.Prime := ⟨hp.1⟩
  haveI : Fact (p / 2).Prime := ⟨hp.2.2⟩
  let u : (ZMod p)ˣ := Units.mk0 _ h0
  have hord : orderOf (u ^ 2) = p / 2 := by
    apply orderOf_eq_prime
    · rw [← pow_mul]
      have a1 : 2 * (p / 2) = p - 1 := by have := hp.2.1; omega
      rw [a1, ZMod.units_pow_card_sub_one_eq_one]
    · intro e
      apply h2
      have := congrArg Units.val e
      simpa [u] using this
  have : (u ^ 2) ^ a = (u ^ 2) ^ b := Units.ext (by simpa [u] using h)
  rw [pow_eq_pow_iff_modEq, hord] at this
  exact (Nat.modEq_iff_dvd.1 this.symm)

/-- Equal powers of the square have exponents that differ by a multiple of `(p-1)(q-1)/4`. -/
theorem square_order [NeZero (p * q)] (h : Safe2 p q) (x : (ZMod (p * q))ˣ)
    (hx : GoodBase p q x.val.val) (a b : Nat)
    (hab : ((x.val.val : Int) ^ 2 % (p * q : ℕ)) ^ a % (p * q : ℕ) =
      ((x.val.val : Int) ^ 2 % (p * q : ℕ)) ^ b % (p * q : ℕ)) :
    ((p / 2 * (q / 2) : ℕ) : Int) ∣ (a : Int) - b := by
  haveI : Fact p.Prime := ⟨h.left.1⟩
  haveI : Fact q.Prime := ⟨h.right.1⟩
  have h1 : ((x.val.val : Int) ^ 2) ^ a ≡ ((x.val.val : Int) ^ 2) ^ b [ZMOD (p * q : ℕ)] :=
    ((Int.mod_modEq _ _).symm.pow a).trans ((show _ ≡ _ [ZMOD (p * q : ℕ)] from hab).trans
      ((Int.mod_modEq _ _).pow b))
  have zp : ((x.val.val : Nat) : ZMod p) ≠ 0 := by
    rw [← split_fst h.coprime]; exact Units.ne_zero _
  have zq : ((x.val.val : Nat) : ZMod q) ≠ 0 := by
    rw [← split_snd h.coprime]; exact Units.ne_zero _
  have hp1 : (((x.val.val : Nat) : ZMod p) ^ 2) ^ a = (((x.val.val : Nat) : ZMod p) ^ 2) ^ b := by
    have := (ZMod.intCast_eq_intCast_iff _ _ _).2
      (h1.of_dvd (⟨(q : Int), by push_cast; ring⟩ : (p : Int) ∣ ((p * q : ℕ) : Int)))
    push_cast at this
    exact this
  have hq1 : (((x.val.val : Nat) : ZMod q) ^ 2) ^ a = (((x.val.val : Nat) : ZMod q) ^ 2) ^ b := by
    have := (ZMod.intCast_eq_intCast_iff _ _ _).2
      (h1.of_dvd (⟨(p : Int), by push_cast; ring⟩ : (q : Int) ∣ ((p * q : ℕ) : Int)))
    push_cast at this
    exact this
  push_cast
  exact IsCoprime.mul_dvd (Nat.isCoprime_iff_coprime.2 h.coprime') (order_side h.left hx.1 zp hp1)
    (order_side h.right hx.2 zq hq1)

end
end PJC.SafeFactor
