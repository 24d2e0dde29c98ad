import Mathlib.AlgebraicGeometry.EllipticCurve.Affine.Point
import Mathlib.NumberTheory.LegendreSymbol.Basic
import Mathlib.Tactic.LinearCombination
import Verif.Lemmas.Ec
import Verif.Lemmas.BigNum
import Verif.Model.Weierstrass
/-
Facts about the coordinate-level model, and the proof that a Weierstrass curve of prime
order with SEC1 encoding is an instance of the group interface.
-/
namespace PJC

namespace Curve

/-- What is assumed of a curve: an odd prime field (the code checks that p is prime,
ec_group.cc:103-107), and enough bytes for a coordinate. -/
structure Proper (c : Curve) (p : Nat) : Prop where
  hp : c.p = p
  prime : p.Prime
  odd : p ≠ 2
  len : p ≤ 256 ^ c.fieldLen

/-- What is assumed of `BN_mod_sqrt`: on a square it returns a reduced root. Which of
the two roots is left open. -/
def SqrtOk (sqrt : BigNum → BigNum → Res BigNum) (p : Nat) : Prop :=
  ∀ a z : Int, (z * z - a) % p = 0 →
    ∃ s, sqrt a p = .ok s ∧ 0 ≤ s ∧ s < p ∧ (s * s - a) % p = 0

theorem onCurve_iff (c : Curve) (x y : Int) : c.onCurve x y = true ↔
    0 ≤ x ∧ x < c.p ∧ 0 ≤ y ∧ y < c.p ∧ (y * y - (x * x * x + c.a * x + c.b)) % c.p = 0 := by
  simp only [onCurve, Bool.and_eq_true, decide_eq_true_eq, and_assoc]

theorem isValid_iff (c : Curve) (P : RawPoint) :
    c.isValid P = true ↔ ∃ x y, P = .aff x y ∧ c.onCurve x y = true := by
  cases P with
  | inf => simp [isValid, isOnCurve, isAtInfinity]
  | aff x y => simp [isValid, isOnCurve, isAtInfinity]

theorem Proper.half {c : Curve} {p : Nat} (h : c.Proper p) :
    BN.div (c.p - 1) 2 = .ok ((p / 2 : Nat) : Int) := by
  have h2 := h.prime.two_le
  have hodd : p % 2 = 1 := (h.prime.eq_two_or_odd).resolve_left h.odd
  simp only [BN.div, h.hp]
  have hm : ((p : Int) - 1).tmod 2 = 0 := by
    rw [Int.tmod_eq_emod_of_nonneg (by omega)]; omega
  have hd : ((p : Int) - 1).tdiv 2 = ((p / 2 : Nat) : Int) := by
    rw [Int.tdiv_eq_ediv_of_nonneg (by omega)]; omega
  rw [if_neg (by norm_num), if_neg (by omega), hd]

/-- Euler's criterion: `IsSquare` holds exactly of the nonzero squares. -/
theorem Proper.isSquare_spec {c : Curve} {p : Nat} (h : c.Proper p) (q : Int) :
    ∃ b, c.isSquare q = .ok b ∧
      (b = true ↔ ¬ (p : Int) ∣ q ∧ ∃ z : Int, (z * z - q) % p = 0) := by
  have hf : Fact p.Prime := ⟨h.prime⟩
  have hp1 := h.prime.one_lt
  refine ⟨BN.isOne (q ^ (p / 2) % p), ?_, ?_⟩
  · have hm : BN.modExp q ((p / 2 : Nat) : Int) c.p = .ok (q ^ (p / 2) % p) := by
      simp only [BN.modExp, h.hp]
      rw [if_neg (by omega), if_neg (by omega), Int.toNat_natCast]
    simp only [isSquare, h.half, Res.ok_bind, hm]
    rfl
  · have h1 : (BN.isOne (q ^ (p / 2) % (p : Int)) = true) ↔ ((q : ZMod p)) ^ (p / 2) = 1 := by
      simp only [BN.isOne, decide_eq_true_eq]
      rw [show (1 : Int) = 1 % (p : Int) from
        (Int.emod_eq_of_lt (by norm_num) (by exact_mod_cast hp1)).symm]
      rw [show (q ^ (p / 2) % (p : Int) = 1 % (p : Int)) ↔ q ^ (p / 2) ≡ 1 [ZMOD p] from Iff.rfl,
        ← ZMod.intCast_eq_intCast_iff]
      push_cast
      rfl
    rw [h1]
    by_cases h0 : (q : ZMod p) = 0
    · have hdvd : (p : Int) ∣ q := (ZMod.intCast_zmod_eq_zero_iff_dvd q p).1 h0
      have hpos : p / 2 ≠ 0 := by have := h.prime.two_le; omega
      simp [h0, hpos, hdvd]
    · have hdvd : ¬ (p : Int) ∣ q := fun hd => h0 ((ZMod.intCast_zmod_eq_zero_iff_dvd q p).2 hd)
      rw [← ZMod.euler_criterion p h0]
      simp only [hdvd, not_false_iff, true_and]
      constructor
      · rintro ⟨r, hr⟩
        refine ⟨(r.val : Int), ?_⟩
        apply Int.emod_eq_zero_of_dvd
        rw [← ZMod.intCast_zmod_eq_zero_iff_dvd]
        push_cast
        rw [ZMod.natCast_zmod_val, hr, sub_self]
      · rintro ⟨z, hz⟩
        refine ⟨(z : ZMod p), ?_⟩
        have := Int.dvd_of_emod_eq_zero hz
        rw [← ZMod.intCast_zmod_eq_zero_iff_dvd] at this
        push_cast at this
        exact (sub_eq_zero.1 this).symm

/-- A square root modulo an odd prime is determined by the square and the parity. -/
theorem root_unique {p : Nat} (hp : p.Prime) (h2 : p ≠ 2) {s t a : Int}
    (hs0 : 0 ≤ s) (hs1 : s < p) (ht0 : 0 ≤ t) (ht1 : t < p)
    (hs : (s * s - a) % p = 0) (ht : (t * t - a) % p = 0) (hpar : s % 2 = t % 2) : s = t := by
  have hd : (p : Int) ∣ (s - t) * (s + t) := by
    have h1 := Int.dvd_of_emod_eq_zero hs
    have h2 := Int.dvd_of_emod_eq_zero ht
    have := Int.dvd_sub h1 h2
    rw [show s * s - a - (t * t - a) = (s - t) * (s + t) by ring] at this
    exact this
  have hodd : p % 2 = 1 := (hp.eq_two_or_odd).resolve_left h2
  rcases (Nat.prime_iff_prime_int.1 hp).dvd_or_dvd hd with h | h
  · obtain ⟨k, hk⟩ := h
    have : k = 0 := by
      have hp0 : 0 < (p : Int) := by exact_mod_cast hp.pos
      nlinarith [show -(1 : Int) < k by nlinarith, show k < 1 by nlinarith]
    subst this
    omega
  · obtain ⟨k, hk⟩ := h
    have hp0 : 0 < (p : Int) := by exact_mod_cast hp.pos
    have hk0 : 0 ≤ k := by nlinarith
    have hk2 : k < 2 := by nlinarith
    interval_cases k
    · omega
    · omega

/-- The outcome of `GetPointByHashingToCurveInternal`: the point with that (reduced) x
and the even one of the two y, when `x^3 + a x + b` is a nonzero square; an Internal
error otherwise. -/
theorem Proper.hashInternal_spec {c : Curve} {p : Nat} (h : c.Proper p)
    {sqrt : BigNum → BigNum → Res BigNum} (hs : SqrtOk sqrt p) (x : Int) :
    (∃ y, c.hashInternal sqrt x = .ok (.aff (x % p) y) ∧ c.onCurve (x % p) y = true ∧
        y % 2 = 0 ∧ y ≠ 0) ∨
    (c.hashInternal sqrt x = .err .internal ∧
      ∀ y : Int, c.onCurve (x % p) y = true → y = 0) := by
  have hp0 : 0 < (p : Int) := by exact_mod_cast h.prime.pos
  have hodd : p % 2 = 1 := (h.prime.eq_two_or_odd).resolve_left h.odd
  set mx := x % (p : Int) with hmx
  set q := mx * mx * mx + c.a * mx + c.b with hq
  have hx0 : 0 ≤ mx := Int.emod_nonneg _ (ne_of_gt hp0)
  have hx1 : mx < p := Int.emod_lt_of_pos _ hp0
  have hmod : BN.mod x c.p = .ok mx := by
    simp only [BN.mod, h.hp]; rw [if_neg (ne_of_gt hp0)]
  have hy2 : c.computeYSquare mx = .ok (q % p) := by
    simp only [computeYSquare, BN.mod, h.hp, BN.exp]
    rw [if_neg (ne_of_gt hp0)]
    congr 2
    rw [hq]
    ring_nf
  obtain ⟨b, hb, hbs⟩ := h.isSquare_spec (q % p)
  have hcong : ∀ z : Int, (z * z - q % p) % p = 0 ↔ (z * z - q) % p = 0 := by
    intro z
    rw [← Int.emod_emod_of_dvd (z * z - q) (dvd_refl (p : Int)), Int.sub_emod, Int.emod_emod,
      ← Int.sub_emod, Int.emod_emod]
  have hdq : (p : Int) ∣ q % p ↔ (p : Int) ∣ q := by
    rw [Int.dvd_iff_emod_eq_zero, Int.dvd_iff_emod_eq_zero, Int.emod_emod]
  cases b with
  | true =>
    left
    obtain ⟨hnd, z, hz⟩ := hbs.1 rfl
    obtain ⟨s, hsq, hs0, hs1, hss⟩ := hs _ z hz
    have hsne : s ≠ 0 := by
      rintro rfl
      apply hnd
      have := Int.dvd_of_emod_eq_zero hss
      rw [show (0 : Int) * 0 - q % p = -(q % p) by ring] at this
      exact (Int.dvd_neg).1 this
    have hss' : (s * s - q) % p = 0 := (hcong s).1 hss
    have onc : ∀ y : Int, 0 ≤ y → y < p → (y * y - q) % p = 0 → c.onCurve mx y = true := by
      intro y h0 h1 h2
      rw [onCurve_iff, h.hp]
      exact ⟨hx0, hx1, h0, h1, h2⟩
    have create : ∀ y : Int, c.onCurve mx y = true →
        c.createECPointXY mx y = .ok (.aff mx y) := by
      intro y hy
      have hv : c.isValid (.aff mx y) = true := (c.isValid_iff _).2 ⟨mx, y, rfl, hy⟩
      simp [createECPointXY, pointOfCoordinates, hy, hv]
    by_cases hbit : BN.isBitSet s 0 = true
    · have hsodd : s % 2 = 1 := by
        simp only [BN.isBitSet, Nat.testBit_zero, decide_eq_true_eq] at hbit
        omega
      have hneg : BN.modNegate s c.p = .ok (p - s) := by
        simp only [BN.modNegate, BN.mod, h.hp]
        rw [if_neg hsne, if_neg (ne_of_gt hp0), Int.emod_eq_of_lt hs0 hs1]
        rfl
      have hon : c.onCurve mx (p - s) = true := by
        apply onc _ (by omega) (by omega)
        have : ((p : Int) - s) * (p - s) - q = (s * s - q) + p * (p - 2 * s) := by ring
        rw [this, Int.add_mul_emod_self_left, hss']
      refine ⟨p - s, ?_, hon, by omega, by omega⟩
      simp only [hashInternal, hmod, Res.ok_bind, hy2, hb, if_true, hbit]
      rw [show sqrt (q % p) c.p = .ok s by rw [h.hp]; exact hsq]
      simp only [Res.ok_bind, hbit, if_true, hneg, create _ hon]
    · have hseven : s % 2 = 0 := by
        simp only [BN.isBitSet, Nat.testBit_zero, decide_eq_true_eq] at hbit
        omega
      have hon : c.onCurve mx s = true := onc s hs0 hs1 hss'
      refine ⟨s, ?_, hon, hseven, hsne⟩
      simp only [hashInternal, hmod, Res.ok_bind, hy2, hb, if_true, hbit]
      rw [show sqrt (q % p) c.p = .ok s by rw [h.hp]; exact hsq]
      simp only [Res.ok_bind, if_neg hbit, create _ hon]
  | false =>
    right
    refine ⟨by simp [hashInternal, hmod, hy2, hb], ?_⟩
    intro y hy
    rw [onCurve_iff, h.hp] at hy
    obtain ⟨-, -, hy0, hy1, hyq⟩ := hy
    by_contra hne
    have : (p : Int) ∣ q % p := by
      by_contra hnd
      have := hbs.2 ⟨hnd, y, (hcong y).2 hyq⟩
      cases this
    have hq' := hdq.1 this
    have hyy : (p : Int) ∣ y * y := by
      have := Int.dvd_add (Int.dvd_of_emod_eq_zero hyq) hq'
      rwa [show y * y - (mx * mx * mx + c.a * mx + c.b) + q = y * y by rw [hq]; ring] at this
    have hdy : (p : Int) ∣ y := by
      rcases (Nat.prime_iff_prime_int.1 h.prime).dvd_or_dvd hyy with h | h <;> exact h
    have := Int.le_of_dvd (by omega) hdy
    omega

theorem ofBytes_padTo (n : Nat) (bs : Bytes) : BN.ofBytes (padTo n bs) = BN.ofBytes bs := by
  simp only [padTo, BN.ofBytes, List.foldl_append]
  congr 2
  generalize n - bs.length = k
  induction k with
  | zero => rfl
  | succ k ih => simpa [List.replicate_succ] using ih

theorem padTo_length {n : Nat} {bs : Bytes} (h : bs.length ≤ n) : (padTo n bs).length = n := by
  simp [padTo]; omega

theorem ofBytes_padTo_natToBytes (n : Nat) {x : Int} (hx : 0 ≤ x) :
    BN.ofBytes (padTo n (BN.natToBytes x.toNat)) = x := by
  rw [ofBytes_padTo, BN.ofBytes_natToBytes]; omega

/-- Decoding inverts (compressed) encoding. -/
theorem Proper.oct2point_point2oct {c : Curve} {p : Nat} (h : c.Proper p) {x y : Int}
    (hxy : c.onCurve x y = true) :
    ∃ bs, c.point2oct (.aff x y) = some bs ∧ c.oct2point bs = some (.aff x y) := by
  obtain ⟨hx0, hx1, hy0, hy1, hc⟩ := (c.onCurve_iff x y).1 hxy
  rw [h.hp] at hx1 hy1 hc
  refine ⟨_, rfl, ?_⟩
  have hlen : (padTo c.fieldLen (BN.natToBytes x.toNat)).length = c.fieldLen := by
    apply padTo_length
    apply BN.natToBytes_length_le
    have := h.len
    omega
  have hx := ofBytes_padTo_natToBytes c.fieldLen hx0
  have hpar : y.toNat % 2 < 2 := Nat.mod_lt _ (by norm_num)
  have hval : (Fin.ofNat 256 (2 + y.toNat % 2) : Fin 256).val = 2 + y.toNat % 2 := by
    show (2 + y.toNat % 2) % 256 = _
    omega
  have h4 : ¬ (Fin.ofNat 256 (2 + y.toNat % 2) : Fin 256) = 4 := by
    intro h
    have := congrArg Fin.val h
    rw [hval] at this
    simp at this
    omega
  have h23 : (Fin.ofNat 256 (2 + y.toNat % 2) : Fin 256) = 2 ∨
      (Fin.ofNat 256 (2 + y.toNat % 2) : Fin 256) = 3 := by
    rcases Nat.mod_two_eq_zero_or_one y.toNat with h | h
    · left; apply Fin.ext; rw [hval, h]; rfl
    · right; apply Fin.ext; rw [hval, h]; rfl
  simp only [oct2point, if_neg h4, if_pos h23, hlen, if_true, hx, hval]
  have hdec : c.decompress x (2 + y.toNat % 2 - 2) = some y := by
    simp only [decompress, h.hp, Int.toNat_natCast]
    have hmem : y.toNat ∈ List.range p := by simp; omega
    have hsat : (decide (y.toNat % 2 = 2 + y.toNat % 2 - 2) && c.onCurve x (y.toNat : Int))
        = true := by
      rw [Int.toNat_of_nonneg hy0, hxy]
      simp
    cases hfind : (List.range p).find?
        (fun z => decide (z % 2 = 2 + y.toNat % 2 - 2) && c.onCurve x (z : Int)) with
    | none =>
      have := List.find?_eq_none.1 hfind _ hmem
      exact absurd hsat this
    | some z =>
      have hz := List.find?_some hfind
      simp only [Bool.and_eq_true, decide_eq_true_eq] at hz
      obtain ⟨hz1, hz2⟩ := hz
      obtain ⟨-, -, hz0, hz3, hz4⟩ := (c.onCurve_iff x z).1 hz2
      rw [h.hp] at hz3 hz4
      have : (z : Int) = y := root_unique h.prime h.odd hz0 hz3 hy0 hy1 hz4 hc (by omega)
      simp [this]
  rw [hdec]
  rfl

/-- Decoding inverts the uncompressed encoding as well. -/
theorem Proper.oct2point_uncompressed {c : Curve} {p : Nat} (h : c.Proper p) {x y : Int}
    (hxy : c.onCurve x y = true) :
    ∃ bs, c.point2octUncompressed (.aff x y) = some bs ∧ c.oct2point bs = some (.aff x y) := by
  obtain ⟨hx0, hx1, hy0, hy1, hc⟩ := (c.onCurve_iff x y).1 hxy
  rw [h.hp] at hx1 hy1
  refine ⟨_, rfl, ?_⟩
  have hlx : (padTo c.fieldLen (BN.natToBytes x.toNat)).length = c.fieldLen := by
    apply padTo_length
    apply BN.natToBytes_length_le
    have := h.len
    omega
  have hly : (padTo c.fieldLen (BN.natToBytes y.toNat)).length = c.fieldLen := by
    apply padTo_length
    apply BN.natToBytes_length_le
    have := h.len
    omega
  have hlen : (padTo c.fieldLen (BN.natToBytes x.toNat) ++
      padTo c.fieldLen (BN.natToBytes y.toNat)).length = 2 * c.fieldLen := by
    rw [List.length_append, hlx, hly]; omega
  simp only [oct2point, if_true, hlen]
  rw [List.take_left' hlx, List.drop_left' hlx, ofBytes_padTo_natToBytes _ hx0,
    ofBytes_padTo_natToBytes _ hy0, if_pos hxy]

/-- Whatever the decoder accepts is an affine point of the curve. -/
theorem oct2point_onCurve {c : Curve} {bs : Bytes} {P : RawPoint}
    (h : c.oct2point bs = some P) : ∃ x y, P = .aff x y ∧ c.onCurve x y = true := by
  cases bs with
  | nil => simp [oct2point] at h
  | cons t rest =>
    simp only [oct2point] at h
    split at h
    · split at h
      · split at h
        · rename_i hon
          simp only [Option.some.injEq] at h
          exact ⟨_, _, h.symm, hon⟩
        · cases h
      · cases h
    · split at h
      · split at h
        · rw [Option.map_eq_some_iff] at h
          obtain ⟨y, hy, rfl⟩ := h
          rw [decompress, Option.map_eq_some_iff] at hy
          obtain ⟨z, hz, rfl⟩ := hy
          have := List.find?_some hz
          simp only [Bool.and_eq_true] at this
          exact ⟨_, _, rfl, this.2⟩
        · cases h
      · cases h

/-! ### The group of points -/

/-- The Weierstrass curve over the prime field (Mathlib's). -/
abbrev W (c : Curve) (p : Nat) : WeierstrassCurve.Affine (ZMod p) :=
  { a₁ := 0, a₂ := 0, a₃ := 0, a₄ := (c.a : ZMod p), a₆ := (c.b : ZMod p) }

variable {p : Nat} [Fact p.Prime]

/-- The coordinates of a point of the group. -/
def ofPoint (c : Curve) : (c.W p).Point → RawPoint
  | .zero => .inf
  | .some x y _ => .aff (x.val : Int) (y.val : Int)

open Classical in
/-- The group element with given coordinates, if there is one. -/
noncomputable def toPoint? (c : Curve) (p : Nat) [Fact p.Prime] : RawPoint → Option (c.W p).Point
  | .inf => some .zero
  | .aff x y =>
    if h : (c.W p).Nonsingular (x : ZMod p) (y : ZMod p) then some (.some _ _ h) else none

theorem equation_iff_mod (c : Curve) (x y : Int) :
    (c.W p).Equation (x : ZMod p) (y : ZMod p) ↔
      (y * y - (x * x * x + c.a * x + c.b)) % (p : Int) = 0 := by
  rw [WeierstrassCurve.Affine.equation_iff', ← Int.dvd_iff_emod_eq_zero,
    ← ZMod.intCast_zmod_eq_zero_iff_dvd]
  push_cast
  constructor
  · intro h; linear_combination h
  · intro h; linear_combination h

theorem ofPoint_onCurve {c : Curve} (hc : c.Proper p) (x y : ZMod p)
    (h : (c.W p).Nonsingular x y) : c.onCurve (x.val : Int) (y.val : Int) = true := by
  have heq : (c.W p).Equation (((x.val : Int)) : ZMod p) (((y.val : Int)) : ZMod p) := by
    push_cast
    rw [ZMod.natCast_zmod_val, ZMod.natCast_zmod_val]
    exact h.1
  rw [onCurve_iff, hc.hp]
  refine ⟨by positivity, ?_, by positivity, ?_, (c.equation_iff_mod _ _).1 heq⟩
  · exact_mod_cast ZMod.val_lt x
  · exact_mod_cast ZMod.val_lt y

theorem toPoint_ofPoint (c : Curve) (P : (c.W p).Point) : c.toPoint? p (c.ofPoint P) = some P := by
  cases P with
  | zero => rfl
  | some x y h =>
    have hx : (((x.val : Int)) : ZMod p) = x := by push_cast; exact ZMod.natCast_zmod_val x
    have hy : (((y.val : Int)) : ZMod p) = y := by push_cast; exact ZMod.natCast_zmod_val y
    simp only [ofPoint, toPoint?, hx, hy, h, dif_pos]

/-- A nonsingular curve: `4 a^3 + 27 b^2` is not zero modulo p. -/
def Smooth (c : Curve) (p : Nat) : Prop :=
  ¬ (p : Int) ∣ 4 * c.a ^ 3 + 27 * c.b ^ 2

/-- On a smooth curve, every pair of coordinates that passes `onCurve` is a group
element, and the group element determines the coordinates. -/
theorem toPoint_of_onCurve {c : Curve} (hc : c.Proper p) (hs : c.Smooth p) {x y : Int}
    (h : c.onCurve x y = true) :
    ∃ P : (c.W p).Point, c.toPoint? p (.aff x y) = some P ∧ c.ofPoint P = .aff x y ∧ P ≠ 0 := by
  obtain ⟨hx0, hx1, hy0, hy1, heq⟩ := (c.onCurve_iff x y).1 h
  rw [hc.hp] at hx1 hy1 heq
  have hE : (c.W p).Equation (x : ZMod p) (y : ZMod p) := (c.equation_iff_mod x y).2 heq
  have hΔ : (c.W p).Δ ≠ 0 := by
    have hodd : p % 2 = 1 := (hc.prime.eq_two_or_odd).resolve_left hc.odd
    have h2 : ((16 : Int) : ZMod p) ≠ 0 := by
      rw [Ne, ZMod.intCast_zmod_eq_zero_iff_dvd]
      intro hd
      have hd' : p ∣ 2 ^ 4 := by exact_mod_cast hd
      have := (Nat.prime_dvd_prime_iff_eq hc.prime Nat.prime_two).1 (hc.prime.dvd_of_dvd_pow hd')
      exact hc.odd this
    have h3 : ((4 * c.a ^ 3 + 27 * c.b ^ 2 : Int) : ZMod p) ≠ 0 := by
      rw [Ne, ZMod.intCast_zmod_eq_zero_iff_dvd]; exact hs
    have : (c.W p).Δ = -((16 : Int) : ZMod p) * ((4 * c.a ^ 3 + 27 * c.b ^ 2 : Int) : ZMod p) := by
      simp only [WeierstrassCurve.Δ, WeierstrassCurve.b₂, WeierstrassCurve.b₄,
        WeierstrassCurve.b₆, WeierstrassCurve.b₈]
      push_cast
      ring
    rw [this]
    exact mul_ne_zero (neg_ne_zero.2 h2) h3
  have hN := ((c.W p).equation_iff_nonsingular_of_Δ_ne_zero hΔ).1 hE
  refine ⟨.some _ _ hN, ?_, ?_, WeierstrassCurve.Affine.Point.some_ne_zero hN⟩
  · simp only [toPoint?, hN, dif_pos]
  · have hvx : ((x : ZMod p).val : Int) = x := by
      rw [ZMod.val_intCast, Int.emod_eq_of_lt hx0 hx1]
    have hvy : ((y : ZMod p).val : Int) = y := by
      rw [ZMod.val_intCast, Int.emod_eq_of_lt hy0 hy1]
    simp only [ofPoint, hvx, hvy]

/-- The result of a coordinate-level hash as a group element.  A hash that has not
returned within the given fuel is treated as an error. -/
noncomputable def liftHash (c : Curve) (p : Nat) [Fact p.Prime] (r : Option (Res RawPoint)) :
    Res (c.W p).Point :=
  match r with
  | none => .err .unknown
  | some (.ok P) => match c.toPoint? p P with | some Q => .ok Q | none => .ub
  | some (.err e) => .err e
  | some .crash => .crash
  | some .ub => .ub

/-- The `ECGroup` of a Weierstrass curve: encoding, decoding and hashing at coordinate
level, arithmetic in Mathlib's group of points.  `sswu` is BoringSSL's
`EC_hash_to_curve_..._sswu` (ec_group.cc:217-243); Model/Sswu.lean describes it. -/
noncomputable def toEcGroup (c : Curve) (p : Nat) [Fact p.Prime] (gen : (c.W p).Point)
    (H : Hashes) (sqrt : BigNum → BigNum → Res BigNum) (fuel : Nat)
    (sswu : Bytes → Bytes → Res (c.W p).Point) : EcGroup (c.W p).Point where
  order := c.order
  gen := gen
  point2oct P := c.point2oct (c.ofPoint P)
  oct2point bs := (c.oct2point bs).bind (c.toPoint? p)
  hashSha256 m := c.liftHash p (c.hashSha256 H sqrt fuel m)
  hashSha384 m := c.liftHash p (c.hashSha384 H sqrt fuel m)
  hashSha512 m := c.liftHash p (c.hashSha512 H sqrt fuel m)
  hashSswuRo := sswu

/-- A Weierstrass curve whose group of points has prime order satisfies everything the
theorems about ciphers and ElGamal assume. -/
theorem toEcGroup_lawful {c : Curve} (hc : c.Proper p) (gen : (c.W p).Point) (hgen : gen ≠ 0)
    (hprime : c.order.Prime) (hcard : Nat.card (c.W p).Point = c.order)
    (H : Hashes) (sqrt : BigNum → BigNum → Res BigNum) (fuel : Nat)
    (sswu : Bytes → Bytes → Res (c.W p).Point) :
    (c.toEcGroup p gen H sqrt fuel sswu).Lawful where
  prime := hprime
  order_smul P := by
    show c.order • P = 0
    rw [← hcard]
    exact card_nsmul_eq_zero'
  gen_ne := hgen
  encode_zero := rfl
  decode_encode P hP := by
    cases P with
    | zero => exact absurd rfl hP
    | some x y h =>
      obtain ⟨bs, h1, h2⟩ := hc.oct2point_point2oct (ofPoint_onCurve hc x y h)
      refine ⟨bs, h1, ?_⟩
      show (c.oct2point bs).bind (c.toPoint? p) = _
      rw [h2]
      exact c.toPoint_ofPoint (.some x y h)

end Curve
end PJC
