import Mathlib.NumberTheory.LegendreSymbol.JacobiSymbol
import Verif.Props.PaillierUniform
/-
Jacobi symbols of Paillier ciphertexts, and exponents of the public generator.
-/
namespace PJC.Props
open PJC PJC.DJ

theorem safe_mod_four {p : Nat} (h : SafePrime p) (h5 : p ≠ 5) : p % 4 = 3 := by
  obtain ⟨-, h2, h3⟩ := h
  rcases h3.eq_two_or_odd with h4 | h4 <;> omega

theorem jac_congr {a b : Int} {n m : Nat} (h : a ≡ b [ZMOD (m : Int)]) (hd : n ∣ m) :
    jacobiSym a n = jacobiSym b n :=
  jacobiSym.mod_left' (modEq_of_dvd' h (by exact_mod_cast hd))

theorem jac_sq {a : Int} {n : Nat} (h : IsCoprime a (n : Int)) :
    jacobiSym a n * jacobiSym a n = 1 := by
  rw [← pow_two]; exact jacobiSym.sq_one (Int.isCoprime_iff_gcd_eq_one.1 h)

theorem jac_cases {a : Int} {n : Nat} (h : IsCoprime a (n : Int)) :
    jacobiSym a n = 1 ∨ jacobiSym a n = -1 :=
  mul_self_eq_one_iff.1 (jac_sq h)

theorem jac_odd_pow {a : Int} {n k : Nat} (h : IsCoprime a (n : Int)) (hk : k % 2 = 1) :
    jacobiSym (a ^ k) n = jacobiSym a n := by
  rw [jacobiSym.pow_left]
  rcases jac_cases h with e | e <;> rw [e]
  · simp
  · exact Odd.neg_one_pow (Nat.odd_iff.2 hk)

theorem generator_modEq (n : Nat) (x : Int) : (n : Int) - x * x % n ≡ -(x * x) [ZMOD (n : Int)] := by
  have := Int.emod_add_mul_ediv (x * x) (n : Int)
  refine Int.modEq_iff_dvd.2 ⟨-(1 + x * x / n), ?_⟩
  linear_combination this

/-- The symbol of `-x²`. -/
theorem jac_neg_sq {x : Int} {n : Nat} (hodd : n % 2 = 1) (hx : IsCoprime x (n : Int)) :
    jacobiSym (-(x * x)) n = if n % 4 = 1 then 1 else -1 := by
  rw [jacobiSym.neg _ (Nat.odd_iff.2 hodd), jacobiSym.mul_left, jac_sq hx, mul_one]
  split
  · rename_i h; exact ZMod.χ₄_nat_one_mod_four h
  · exact ZMod.χ₄_nat_three_mod_four (by omega)

theorem mul_mod_four {p q : Nat} (hp : p % 4 = 3) (hq : q % 4 = 3) : p * q % 4 = 1 := by
  rw [Nat.mul_mod, hp, hq]

/-- `-x²` generates the units modulo a safe prime unless `x = ±1`. -/
theorem neg_sq_primitive {p : Nat} (hp : SafePrime p) (h5 : p ≠ 5) (h3 : 3 < p) {x g : Int}
    (hx : IsCoprime x (p : Int)) (h1 : x % p ≠ 1) (h2 : x % p ≠ p - 1)
    (hg : g ≡ -(x * x) [ZMOD (p : Int)]) (r : Int) (hr : IsCoprime r (p : Int)) :
    ∃ e : Nat, g ^ e ≡ r [ZMOD (p : Int)] := by
  have hm := safe_mod_four hp h5
  have hgc : IsCoprime g (p : Int) := isCoprime_of_modEq hg.symm (hx.mul_left hx).neg_left
  have pp : (0 : Int) < p := by omega
  have := Fact.mk hp.1
  have hsq : ∀ y : Int, y * y ≡ 1 [ZMOD (p : Int)] → y % p = 1 ∨ y % p = p - 1 := by
    intro y hy
    have hd : (p : Int) ∣ (y - 1) * (y + 1) := by
      have := hy.symm.dvd
      rwa [show (y - 1) * (y + 1) = y * y - 1 by ring]
    rcases (Nat.prime_iff_prime_int.1 hp.1).dvd_or_dvd hd with h | h
    · left
      have : y ≡ 1 [ZMOD (p : Int)] := (Int.modEq_iff_dvd.2 h).symm
      rw [this]; exact Int.emod_eq_of_lt (by norm_num) (by omega)
    · right
      have : y ≡ (p : Int) - 1 [ZMOD (p : Int)] :=
        (Int.modEq_iff_dvd.2 (by
          rw [show y - ((p : Int) - 1) = (y + 1) - p by ring]; exact Int.dvd_sub h dvd_rfl)).symm
      rw [this]; exact Int.emod_eq_of_lt (by omega) (by omega)
  refine ((primitive_root hp.1 h3 hp.2.1 hp.2.2 hgc ?_ ?_).1 r hr).imp fun e he => he.2.2
  · -- g² = x⁴, and x² ≠ ±1
    intro hc
    have hc' : g * g ≡ 1 [ZMOD (p : Int)] := by
      rw [Int.ModEq, hc]; exact (Int.emod_eq_of_lt (by norm_num) (by omega)).symm
    have hxx : (x * x) * (x * x) ≡ 1 [ZMOD (p : Int)] := by
      have := (hg.mul hg).symm.trans hc'
      rwa [neg_mul_neg] at this
    rcases hsq _ hxx with h | h
    · have : x * x ≡ 1 [ZMOD (p : Int)] := by
        rw [Int.ModEq, h]; exact (Int.emod_eq_of_lt (by norm_num) (by omega)).symm
      rcases hsq _ this with h | h
      · exact h1 h
      · exact h2 h
    · have hj : jacobiSym (x * x) p = jacobiSym (-1) p := by
        apply jac_congr (m := p) _ dvd_rfl
        rw [Int.ModEq, h, show (-1 : Int) = ((p : Int) - 1) + p * (-1) by ring,
          Int.add_mul_emod_self_left]
        exact (Int.emod_eq_of_lt (by omega) (by omega)).symm
      rw [jacobiSym.mul_left, jac_sq hx, jacobiSym.at_neg_one (Nat.odd_iff.2 hp.2.1),
        ZMod.χ₄_nat_three_mod_four hm] at hj
      norm_num at hj
  · -- g is not a square
    intro hc
    have hj : jacobiSym g p = -1 := by
      rw [jac_congr hg dvd_rfl, jac_neg_sq hp.2.1 hx, if_neg (by omega)]
    rw [← jacobiSym.legendreSym.to_jacobiSym] at hj
    have e := legendreSym.eq_pow p g
    rw [hj] at e
    have hc' : ((g ^ (p / 2) : Int) : ZMod p) = ((1 : Int) : ZMod p) := by
      apply (ZMod.intCast_eq_intCast_iff' _ _ _).2
      rw [hc]; exact (Int.emod_eq_of_lt (by norm_num) (by omega)).symm
    push_cast at hc' e
    rw [hc'] at e
    have : ((-1 : Int) : ZMod p) = ((1 : Int) : ZMod p) := by push_cast; exact e
    have := (ZMod.intCast_eq_intCast_iff_dvd_sub _ _ _).1 this
    have := Int.le_of_dvd (by norm_num) this
    omega

/-- The generator found for a safe prime is a non-residue. -/
theorem jac_gP {p : Nat} (hp : p.Prime) (h2 : p % 2 = 1) {g : Int} (hg : IsCoprime g (p : Int))
    (h : g ^ (p / 2) % (p : Int) ≠ 1) : jacobiSym g p = -1 := by
  have := Fact.mk hp
  rcases jac_cases hg with e | e
  · exfalso
    rw [← jacobiSym.legendreSym.to_jacobiSym] at e
    have e' := legendreSym.eq_pow p g
    rw [e] at e'
    have : ((g ^ (p / 2) : Int) : ZMod p) = ((1 : Int) : ZMod p) := by
      push_cast; rw [← e']; simp
    have := (ZMod.intCast_eq_intCast_iff' _ _ _).1 this
    apply h
    rw [this]
    exact Int.emod_eq_of_lt (by norm_num) (by exact_mod_cast hp.one_lt)
  · exact e

/-- The symbol, modulo a prime factor, of `(1+n)^M ρ^(n^s)` is that of `ρ`. -/
theorem jac_ct {p n s M : Nat} (hs : 1 ≤ s + 1) (hpn : p ∣ n) (hn : n % 2 = 1) {ρ c : Int}
    (hρ : IsCoprime ρ (p : Int))
    (h : c ≡ (1 + (n : Int)) ^ M * ρ ^ n ^ s [ZMOD (p : Int) ^ (s + 1)]) :
    jacobiSym c p = jacobiSym ρ p := by
  have h1 : c ≡ (1 + (n : Int)) ^ M * ρ ^ n ^ s [ZMOD (p : Int)] :=
    modEq_of_dvd' h (dvd_pow_self _ (by omega))
  have h2 : (1 + (n : Int)) ^ M ≡ 1 [ZMOD (p : Int)] := by
    have : (1 + (n : Int)) ≡ 1 [ZMOD (p : Int)] :=
      (Int.modEq_iff_dvd.2 (by
        rw [show (1 + (n : Int)) - 1 = n by ring]; exact_mod_cast hpn)).symm
    simpa using this.pow M
  have h3 : c ≡ ρ ^ n ^ s [ZMOD (p : Int)] := by
    have := h1.trans (h2.mul_right _)
    rwa [one_mul] at this
  rw [jac_congr h3 dvd_rfl]
  apply jac_odd_pow hρ
  have : n ^ s % 2 = 1 := by rw [Nat.pow_mod, hn]; simp
  exact this

theorem exists_inv {p : Nat} {a : Int} (h : IsCoprime a (p : Int)) :
    ∃ b : Int, a * b ≡ 1 [ZMOD (p : Int)] ∧ IsCoprime b (p : Int) := by
  obtain ⟨u, v, huv⟩ := h
  have h1 : a * u ≡ 1 [ZMOD (p : Int)] := Int.modEq_iff_dvd.2 ⟨v, by linear_combination -huv⟩
  exact ⟨u, h1, ⟨a, v, by linear_combination huv⟩⟩

/-- Two ciphertexts of one message with the same symbol differ by a power of the mask that the
public key uses. -/
theorem mask_between {p q s : Nat} (hp : SafePrime p) (hq : SafePrime q) (p5 : p ≠ 5) (q5 : q ≠ 5)
    (p3 : 3 < p) (q3 : 3 < q) (hpq : p ≠ q) {x g m C C' : Int}
    (hx : Int.gcd x ((p * q : Nat) : Int) = 1) (xp1 : x % p ≠ 1) (xp2 : x % p ≠ p - 1)
    (xq1 : x % q ≠ 1) (xq2 : x % q ≠ q - 1)
    (hg : g ≡ -(x * x) [ZMOD ((p * q : Nat) : Int)])
    (cp : CtI p (p * q) s m C) (cq : CtI q (p * q) s m C)
    (cp' : CtI p (p * q) s m C') (cq' : CtI q (p * q) s m C')
    (hj : jacobiSym C (p * q) = jacobiSym C' (p * q)) :
    ∃ k : Nat, C' ≡ C * (g ^ k) ^ (p * q) ^ s [ZMOD ((p * q : Nat) : Int) ^ (s + 1)] := by
  obtain ⟨hxp, hxq⟩ := coprime_parts hx
  have hpm := safe_mod_four hp p5
  have hqm := safe_mod_four hq q5
  have hn : p * q % 2 = 1 := by have := mul_mod_four hpm hqm; omega
  have gp : g ≡ -(x * x) [ZMOD (p : Int)] := modEq_of_dvd' hg (by push_cast; exact Dvd.intro _ rfl)
  have gq : g ≡ -(x * x) [ZMOD (q : Int)] :=
    modEq_of_dvd' hg (by push_cast; exact Dvd.intro_left _ rfl)
  -- one prime at a time: a unit `u` whose power leads from `C` to `C'`
  have side : ∀ {P Q : Nat}, P ∣ p * q → p * q = P * Q → P.Prime →
      CtI P (p * q) s m C → CtI P (p * q) s m C' →
      ∃ u : Int, IsCoprime u (P : Int) ∧ jacobiSym u P = jacobiSym C P * jacobiSym C' P ∧
        IsCoprime C (P : Int) ∧ IsCoprime C' (P : Int) ∧
        ∀ y : Int, y ≡ u [ZMOD (P : Int)] →
          C' ≡ C * y ^ (p * q) ^ s [ZMOD (P : Int) ^ (s + 1)] := by
    intro P Q hPn hPQ hP c1 c2
    obtain ⟨M, hM, ρ, hρ, e⟩ := c1
    obtain ⟨M', hM', ρ', hρ', e'⟩ := c2
    have jC := jac_ct (by omega) hPn hn hρ e
    have jC' := jac_ct (by omega) hPn hn hρ' e'
    obtain ⟨τ, hτ, hτc⟩ := exists_inv hρ
    have cop : ∀ {c r : Int} {M : Nat}, IsCoprime r (P : Int) →
        c ≡ (1 + ((p * q : Nat) : Int)) ^ M * r ^ (p * q) ^ s [ZMOD (P : Int) ^ (s + 1)] →
        IsCoprime c (P : Int) := by
      intro c r M hr hc
      refine isCoprime_of_modEq (modEq_of_dvd' hc (dvd_pow_self _ (by omega))).symm ?_
      refine IsCoprime.mul_left (IsCoprime.pow_left ?_) hr.pow_left
      obtain ⟨d, hd⟩ := hPn
      rw [hd]
      exact ⟨1, -d, by push_cast; ring⟩
    refine ⟨ρ' * τ, hρ'.mul_left hτc, ?_, cop hρ e, cop hρ' e', ?_⟩
    · rw [jacobiSym.mul_left, jC, jC']
      have : jacobiSym ρ P * jacobiSym τ P = 1 := by
        rw [← jacobiSym.mul_left, jac_congr hτ dvd_rfl, jacobiSym.one_left]
      have h2 := jac_sq hρ
      have : jacobiSym τ P = jacobiSym ρ P := by
        calc jacobiSym τ P = (jacobiSym ρ P * jacobiSym ρ P) * jacobiSym τ P := by rw [h2, one_mul]
          _ = jacobiSym ρ P * (jacobiSym ρ P * jacobiSym τ P) := by ring
          _ = jacobiSym ρ P := by rw [this, mul_one]
      rw [this, mul_comm]
    · intro y hy
      have h1 : y * ρ ≡ ρ' [ZMOD (P : Int)] := by
        have := (hy.mul_right ρ).trans ((meq_of_eq (by ring : ρ' * τ * ρ = ρ' * (ρ * τ))).trans
          (hτ.mul_left ρ'))
        rwa [mul_one] at this
      have h2 := pow_lift P Q s _ _ h1
      rw [← hPQ] at h2
      have hMM : (1 + ((p * q : Nat) : Int)) ^ M ≡ (1 + ((p * q : Nat) : Int)) ^ M'
          [ZMOD (P : Int) ^ (s + 1)] := by
        apply one_add_pow_period P _ (by exact_mod_cast hPn)
        have := hM.trans hM'.symm
        exact (Int.natCast_modEq_iff).1 (by push_cast; exact this)
      refine e'.trans ?_
      refine Int.ModEq.trans ?_ (e.symm.mul_right _)
      rw [mul_assoc, ← mul_pow, mul_comm ρ y]
      exact hMM.symm.mul h2.symm
  obtain ⟨u, hu, ju, cCp, cCp', hup⟩ := side (Dvd.intro _ rfl) rfl hp.1 cp cp'
  obtain ⟨v, hv, jv, cCq, cCq', hvq⟩ := side (Dvd.intro_left _ rfl) (Nat.mul_comm p q) hq.1 cq cq'
  obtain ⟨i, hi⟩ := neg_sq_primitive hp p5 p3 hxp xp1 xp2 gp u hu
  obtain ⟨j, hjj⟩ := neg_sq_primitive hq q5 q3 hxq xq1 xq2 gq v hv
  -- the parities agree
  have jg : jacobiSym g p = -1 := by
    rw [jac_congr gp dvd_rfl, jac_neg_sq hp.2.1 hxp, if_neg (by omega)]
  have jg' : jacobiSym g q = -1 := by
    rw [jac_congr gq dvd_rfl, jac_neg_sq hq.2.1 hxq, if_neg (by omega)]
  have ei : (-1 : Int) ^ i = jacobiSym C p * jacobiSym C' p := by
    rw [← ju, ← jac_congr hi dvd_rfl, jacobiSym.pow_left, jg]
  have ej : (-1 : Int) ^ j = jacobiSym C q * jacobiSym C' q := by
    rw [← jv, ← jac_congr hjj dvd_rfl, jacobiSym.pow_left, jg']
  have := Fact.mk hp.1
  have := Fact.mk hq.1
  rw [jacobiSym.mul_right, jacobiSym.mul_right] at hj
  have par : i % 2 = j % 2 := by
    have hprod : (-1 : Int) ^ i = (-1 : Int) ^ j := by
      rw [ei, ej]
      rcases jac_cases cCp with a | a <;> rcases jac_cases cCp' with b | b <;>
        rcases jac_cases cCq with c | c <;> rcases jac_cases cCq' with d | d <;>
        revert hj <;> rw [a, b, c, d] <;> decide
    rcases Nat.mod_two_eq_zero_or_one i with a | a <;> rcases Nat.mod_two_eq_zero_or_one j with b | b
    · omega
    · rw [Even.neg_one_pow (Nat.even_iff.2 a), Odd.neg_one_pow (Nat.odd_iff.2 b)] at hprod
      norm_num at hprod
    · rw [Odd.neg_one_pow (Nat.odd_iff.2 a), Even.neg_one_pow (Nat.even_iff.2 b)] at hprod
      norm_num at hprod
    · omega
  have hgcd : Nat.gcd (p - 1) (q - 1) = 2 := by
    have e1 : p - 1 = 2 * (p / 2) := by have := hp.2.1; omega
    have e2 : q - 1 = 2 * (q / 2) := by have := hq.2.1; omega
    have hne : p / 2 ≠ q / 2 := by have := hp.2.1; have := hq.2.1; omega
    rw [e1, e2, Nat.gcd_mul_left, (Nat.coprime_primes hp.2.2 hq.2.2).2 hne]
  obtain ⟨k, hk1, hk2⟩ := Nat.chineseRemainder' (n := p - 1) (m := q - 1) (a := i) (b := j)
    (by rw [hgcd]; exact par)
  have period : ∀ {P : Nat}, P.Prime → IsCoprime g (P : Int) → ∀ {a b : Nat}, a ≡ b [MOD P - 1] →
      g ^ a ≡ g ^ b [ZMOD (P : Int)] := by
    intro P hP hgP
    have base : ∀ a : Nat, g ^ a ≡ g ^ (a % (P - 1)) [ZMOD (P : Int)] := by
      intro a
      have hf := Int.ModEq.pow_card_sub_one_eq_one hP hgP
      calc g ^ a = g ^ (a % (P - 1) + (P - 1) * (a / (P - 1))) := by rw [Nat.mod_add_div]
        _ = g ^ (a % (P - 1)) * (g ^ (P - 1)) ^ (a / (P - 1)) := by rw [pow_add, pow_mul]
        _ ≡ g ^ (a % (P - 1)) * 1 ^ (a / (P - 1)) [ZMOD (P : Int)] := (hf.pow _).mul_left _
        _ = g ^ (a % (P - 1)) := by rw [one_pow, mul_one]
    intro a b hab
    exact (base a).trans ((meq_of_eq (by rw [hab])).trans (base b).symm)
  have gcp : IsCoprime g (p : Int) := isCoprime_of_modEq gp.symm (hxp.mul_left hxp).neg_left
  have gcq : IsCoprime g (q : Int) := isCoprime_of_modEq gq.symm (hxq.mul_left hxq).neg_left
  refine ⟨k, ?_⟩
  have r1 := hup (g ^ k) ((period hp.1 gcp hk1).trans hi)
  have r2 := hvq (g ^ k) ((period hq.1 gcq hk2).trans hjj)
  have hc : IsCoprime ((p : Int) ^ (s + 1)) ((q : Int) ^ (s + 1)) :=
    (Nat.isCoprime_iff_coprime.2 ((Nat.coprime_primes hp.1 hq.1).2 hpq)).pow
  have e1 : ((p * q : Nat) : Int) ^ (s + 1) = (p : Int) ^ (s + 1) * (q : Int) ^ (s + 1) := by
    push_cast; exact mul_pow _ _ _
  rw [e1]
  exact Int.modEq_iff_dvd.2 (hc.mul_dvd r1.dvd r2.dvd)

end PJC.Props
