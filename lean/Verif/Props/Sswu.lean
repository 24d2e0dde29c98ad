import Mathlib.NumberTheory.LegendreSymbol.QuadraticChar.Basic
import Verif.Model.Sswu
import Verif.Props.Nist
/-
C114: hashing to the curve with SSWU.  On P-256 and P-384 the hash always returns a point of the
curve; other curves are refused.

Specification: `IsPoint p a b x y` (reduced coordinates on y^2 = x^3 + a x + b modulo p), and RFC
9380 as written out in Model/Sswu.lean.
-/
namespace PJC.Sswu
open PJC PJC.Curve

/-! ### The suites -/

/-- P256_XMD:SHA-256_SSWU (RFC 9380, 8.2). -/
def p256Suite : Suite where
  p := q256
  a := Curve.p256.a
  b := Curve.p256.b
  z := -10
  hash H := H.sha256
  digestLen := 32
  blockLen := 64
  len := 48

/-- P384_XMD:SHA-384_SSWU (RFC 9380, 8.3). -/
def p384Suite : Suite where
  p := q384
  a := Curve.p384.a
  b := Curve.p384.b
  z := -12
  hash H := H.sha384
  digestLen := 48
  blockLen := 128
  len := 72

/-- The two suites with their curves. -/
inductive IsSuite : Suite → Curve → Int → Prop where
  | p256 : IsSuite p256Suite Curve.p256 415
  | p384 : IsSuite p384Suite Curve.p384 715

/-- What the map needs of a suite (RFC 9380, 6.6.2 and H.2). -/
structure Suite.Ok (S : Suite) : Prop where
  prime : S.p.Prime
  mod4 : S.p % 4 = 3
  bits : S.p < 2 ^ (8 * S.len)
  a_ne : S.a % S.p ≠ 0
  z_nonsq : S.isSq S.z = false
  exceptional : S.isSq (S.g (S.b * S.inv0 (S.z * S.a) % S.p)) = true

theorem p256Suite_ok : p256Suite.Ok where
  prime := p256_certified.proper.prime
  mod4 := by decide +kernel
  bits := by decide +kernel
  a_ne := by decide +kernel
  z_nonsq := by decide +kernel
  exceptional := by decide +kernel

theorem p384Suite_ok : p384Suite.Ok where
  prime := p384_certified.proper.prime
  mod4 := by decide +kernel
  bits := by decide +kernel
  a_ne := by decide +kernel
  z_nonsq := by decide +kernel
  exceptional := by decide +kernel

theorem IsSuite.ok {S : Suite} {c : Curve} {id : Int} (h : IsSuite S c id) : S.Ok := by
  cases h
  · exact p256Suite_ok
  · exact p384Suite_ok

theorem IsSuite.named {S : Suite} {c : Curve} {id : Int} (h : IsSuite S c id) :
    ∃ gx gy, Named c S.p gx gy ∧ c.p = S.p ∧ c.a = S.a ∧ c.b = S.b := by
  cases h
  · exact ⟨_, _, .p256, p256_certified.proper.hp, rfl, rfl⟩
  · exact ⟨_, _, .p384, p384_certified.proper.hp, rfl, rfl⟩

/-! ### Arithmetic modulo p -/

theorem powm_eq (m : Nat) : ∀ fuel a e, e < 2 ^ fuel → powm m fuel a e = a ^ e % m := by
  intro fuel a e h
  rw [← powMod_eq m fuel a e h]
  clear h
  induction fuel generalizing a e with
  | zero => rfl
  | succ n ih => simp only [powm, powMod, ih]

theorem Suite.Ok.pow_range {S : Suite} (h : S.Ok) (x : Int) {e : Nat} (he : e < S.p) :
    0 ≤ S.pow x e ∧ S.pow x e < S.p := by
  unfold Suite.pow
  rw [powm_eq _ _ _ _ (he.trans h.bits)]
  exact ⟨by positivity, by exact_mod_cast Nat.mod_lt _ h.prime.pos⟩

theorem cast_emod (p : Nat) (x : Int) : ((x % (p : Int) : Int) : ZMod p) = x := by
  rw [ZMod.intCast_mod]

theorem Suite.Ok.pow_cast {S : Suite} (h : S.Ok) (x : Int) {e : Nat} (he : e < S.p) :
    ((S.pow x e : Int) : ZMod S.p) = (x : ZMod S.p) ^ e := by
  have hp0 : (0 : Int) < S.p := by exact_mod_cast h.prime.pos
  unfold Suite.pow
  rw [powm_eq _ _ _ _ (he.trans h.bits)]
  have h1 : (((x % (S.p : Int)).toNat : Nat) : ZMod S.p) = x := by
    rw [← Int.cast_natCast, Int.toNat_of_nonneg (Int.emod_nonneg _ (ne_of_gt hp0)), cast_emod]
  push_cast
  rw [h1]

variable {S : Suite}

theorem Suite.Ok.inv0_cast (h : S.Ok) [Fact S.p.Prime] (x : Int) :
    ((S.inv0 x : Int) : ZMod S.p) = (x : ZMod S.p)⁻¹ := by
  have h3 : 3 ≤ S.p := by have := h.mod4; omega
  unfold Suite.inv0
  rw [h.pow_cast x (by omega)]
  by_cases hx : (x : ZMod S.p) = 0
  · rw [hx, inv_zero, zero_pow (by omega)]
  · apply eq_inv_of_mul_eq_one_left
    rw [← pow_succ, show S.p - 2 + 1 = S.p - 1 by omega]
    exact ZMod.pow_card_sub_one_eq_one hx

theorem Suite.Ok.isSq_iff (h : S.Ok) [Fact S.p.Prime] (x : Int) :
    S.isSq x = true ↔ IsSquare (x : ZMod S.p) := by
  have h3 : 3 ≤ S.p := by have := h.mod4; omega
  have hr := h.pow_range x (show (S.p - 1) / 2 < S.p by omega)
  have hc := h.pow_cast x (show (S.p - 1) / 2 < S.p by omega)
  have hv : ∀ k : Int, 0 ≤ k → k < S.p → (S.pow x ((S.p - 1) / 2) = k ↔
      (x : ZMod S.p) ^ ((S.p - 1) / 2) = k) := by
    intro k k0 k1
    rw [← hc, ZMod.intCast_eq_intCast_iff_dvd_sub]
    constructor
    · intro h; rw [h]; simp
    · intro hd
      have := Int.eq_zero_of_abs_lt_dvd hd (by rw [abs_lt]; constructor <;> omega)
      omega
  unfold Suite.isSq
  rw [Bool.or_eq_true, decide_eq_true_iff, decide_eq_true_iff, hv 0 le_rfl (by omega),
    hv 1 (by omega) (by omega)]
  by_cases hx : (x : ZMod S.p) = 0
  · rw [hx]
    constructor
    · intro _; exact ⟨0, by simp⟩
    · intro _; left; rw [zero_pow (by omega)]; simp
  · have h2 : (S.p - 1) / 2 = S.p / 2 := by have := h.mod4; omega
    rw [ZMod.euler_criterion S.p hx, h2]
    constructor
    · rintro (h0 | h1)
      · exfalso
        have := pow_ne_zero (S.p / 2) hx
        simp at h0
        exact hx h0.1
      · simpa using h1
    · intro h1; right; simpa using h1

theorem Suite.Ok.sqrt_range (h : S.Ok) (x : Int) : 0 ≤ S.sqrt x ∧ S.sqrt x < S.p :=
  h.pow_range x (by have := h.mod4; omega)

theorem Suite.Ok.sqrt_sq (h : S.Ok) [Fact S.p.Prime] {x : Int} (hx : IsSquare (x : ZMod S.p)) :
    ((S.sqrt x : Int) : ZMod S.p) ^ 2 = x := by
  have h4 := h.mod4
  unfold Suite.sqrt
  rw [h.pow_cast x (by omega)]
  obtain ⟨z, hz⟩ := hx
  rw [hz, ← pow_two, ← pow_mul, ← pow_mul, show 2 * ((S.p + 1) / 4 * 2) = S.p + 1 by omega,
    pow_succ, ZMod.pow_card, pow_two]

/-! ### The map -/

/-- In a prime field, of two candidates that differ by a non-square factor (times a square) one is
a square. -/
theorem nonsq_mul {p : Nat} [Fact p.Prime] {x y : ZMod p} (hp : p ≠ 2) (hx : ¬ IsSquare x)
    (hy : ¬ IsSquare y) : IsSquare (x * y) := by
  have h2 : ringChar (ZMod p) ≠ 2 := by rw [ZMod.ringChar_zmod_n]; exact hp
  have ex := quadraticChar_neg_one_iff_not_isSquare.2 hx
  have ey := quadraticChar_neg_one_iff_not_isSquare.2 hy
  have hx0 : x ≠ 0 := by rintro rfl; exact hx ⟨0, by simp⟩
  have hy0 : y ≠ 0 := by rintro rfl; exact hy ⟨0, by simp⟩
  rw [← quadraticChar_one_iff_isSquare (mul_ne_zero hx0 hy0), map_mul, ex, ey]
  norm_num

theorem Suite.g_cast (S : Suite) (x : Int) :
    ((S.g x : Int) : ZMod S.p) = (x : ZMod S.p) ^ 3 + S.a * x + S.b := by
  unfold Suite.g
  rw [cast_emod]
  push_cast
  ring

/-- One of the two candidates is the x-coordinate of a point. -/
theorem Suite.Ok.candidates (h : S.Ok) [Fact S.p.Prime] (u : Nat) :
    IsSquare ((S.g (S.x1 u) : Int) : ZMod S.p) ∨ IsSquare ((S.g (S.x2 u) : Int) : ZMod S.p) := by
  have hp2 : S.p ≠ 2 := by have := h.mod4; omega
  have hA : (S.a : ZMod S.p) ≠ 0 := by
    rw [Ne, ZMod.intCast_zmod_eq_zero_iff_dvd]
    intro hd
    exact h.a_ne (Int.emod_eq_zero_of_dvd hd)
  have hZ : ¬ IsSquare (S.z : ZMod S.p) := by
    rw [← h.isSq_iff, h.z_nonsq]; simp
  by_cases hx : IsSquare ((S.g (S.x1 u) : Int) : ZMod S.p)
  · exact Or.inl hx
  right
  -- t, and the case where it has no inverse
  have ht : ((S.z * (u : Int) ^ 2 % (S.p : Int) : Int) : ZMod S.p) = S.z * (u : ZMod S.p) ^ 2 := by
    rw [cast_emod]; push_cast; ring
  have htv : ((S.inv0 ((S.z * (u : Int) ^ 2 % (S.p : Int)) ^ 2 +
      S.z * (u : Int) ^ 2 % (S.p : Int)) : Int) : ZMod S.p) =
      ((S.z * (u : ZMod S.p) ^ 2) ^ 2 + S.z * (u : ZMod S.p) ^ 2)⁻¹ := by
    rw [h.inv0_cast]
    congr 1
    push_cast
    ring
  by_cases h0 : S.inv0 ((S.z * (u : Int) ^ 2 % (S.p : Int)) ^ 2 +
      S.z * (u : Int) ^ 2 % (S.p : Int)) = 0
  · exfalso
    apply hx
    have : S.x1 u = S.b * S.inv0 (S.z * S.a) % S.p := by
      unfold Suite.x1
      simp only
      rw [if_pos h0]
    rw [this, ← h.isSq_iff]
    exact h.exceptional
  · have hx1 : ((S.x1 u : Int) : ZMod S.p) = -(S.b : ZMod S.p) * (S.a : ZMod S.p)⁻¹ *
        (1 + ((S.z * (u : ZMod S.p) ^ 2) ^ 2 + S.z * (u : ZMod S.p) ^ 2)⁻¹) := by
      unfold Suite.x1
      simp only
      rw [if_neg h0, cast_emod]
      push_cast
      rw [htv, h.inv0_cast]
    have hx2 : ((S.x2 u : Int) : ZMod S.p) = S.z * (u : ZMod S.p) ^ 2 * ((S.x1 u : Int) : ZMod S.p) := by
      unfold Suite.x2
      rw [cast_emod]
      push_cast
      ring
    have hd : (S.z * (u : ZMod S.p) ^ 2) ^ 2 + S.z * (u : ZMod S.p) ^ 2 ≠ 0 := by
      intro hd
      apply h0
      rw [hd, inv_zero, ZMod.intCast_zmod_eq_zero_iff_dvd] at htv
      have hr := h.pow_range ((S.z * (u : Int) ^ 2 % (S.p : Int)) ^ 2 +
        S.z * (u : Int) ^ 2 % (S.p : Int)) (show S.p - 2 < S.p by have := h.prime.pos; omega)
      exact Int.eq_zero_of_dvd_of_nonneg_of_lt hr.1 hr.2 htv
    generalize htt : S.z * (u : ZMod S.p) ^ 2 = t at *
    have hgg : ((S.g (S.x2 u) : Int) : ZMod S.p) = t ^ 3 * ((S.g (S.x1 u) : Int) : ZMod S.p) := by
      rw [S.g_cast, S.g_cast, hx2, hx1]
      have ht0 : t ≠ 0 := by rintro rfl; simp at hd
      have ht1 : t + 1 ≠ 0 := by
        intro h1
        apply hd
        have : t ^ 2 + t = t * (t + 1) := by ring
        rw [this, h1, mul_zero]
      have e : t ^ 2 + t = t * (t + 1) := by ring
      rw [e]
      field_simp
      ring
    obtain ⟨w, hw⟩ := nonsq_mul hp2 hZ hx
    rw [hgg, ← htt]
    refine ⟨w * (S.z * (u : ZMod S.p) ^ 3), ?_⟩
    have : (S.z * (u : ZMod S.p) ^ 2) ^ 3 * ((S.g (S.x1 u) : Int) : ZMod S.p) =
        (S.z * ((S.g (S.x1 u) : Int) : ZMod S.p)) * (S.z * (u : ZMod S.p) ^ 3) ^ 2 := by ring
    rw [this, hw]
    ring

theorem Suite.Ok.x_range (h : S.Ok) (u : Nat) :
    (0 ≤ S.x1 u ∧ S.x1 u < S.p) ∧ (0 ≤ S.x2 u ∧ S.x2 u < S.p) := by
  have hp0 : (0 : Int) < S.p := by exact_mod_cast h.prime.pos
  have r : ∀ k : Int, 0 ≤ k % S.p ∧ k % S.p < S.p :=
    fun k => ⟨Int.emod_nonneg _ (ne_of_gt hp0), Int.emod_lt_of_pos _ hp0⟩
  refine ⟨?_, r _⟩
  unfold Suite.x1
  simp only
  split
  · exact r _
  · exact r _

/-- The x-coordinate and the root of the map. -/
theorem Suite.Ok.map_xy (h : S.Ok) [Fact S.p.Prime] (u : Nat) :
    ∃ x s : Int, 0 ≤ x ∧ x < S.p ∧ 0 ≤ s ∧ s < S.p ∧
      (s : ZMod S.p) ^ 2 = (x : ZMod S.p) ^ 3 + S.a * x + S.b ∧
      mapToCurve S u = (x, if (u : Int) % 2 = s % 2 then s else (-s) % S.p) := by
  obtain ⟨⟨a0, a1⟩, b0, b1⟩ := h.x_range u
  have hsq := h.isSq_iff (S.g (S.x1 u))
  by_cases hq : S.isSq (S.g (S.x1 u)) = true
  · obtain ⟨s0, s1⟩ := h.sqrt_range (S.g (S.x1 u))
    refine ⟨S.x1 u, S.sqrt (S.g (S.x1 u)), a0, a1, s0, s1, ?_, ?_⟩
    · rw [h.sqrt_sq (hsq.1 hq), S.g_cast]
    · unfold mapToCurve
      simp only [hq, if_true]
  · obtain ⟨s0, s1⟩ := h.sqrt_range (S.g (S.x2 u))
    have h2 := (h.candidates u).resolve_left fun h' => hq (hsq.2 h')
    refine ⟨S.x2 u, S.sqrt (S.g (S.x2 u)), b0, b1, s0, s1, ?_, ?_⟩
    · rw [h.sqrt_sq h2, S.g_cast]
    · unfold mapToCurve
      simp only [hq, if_false, Bool.false_eq_true]

/-! ### C114 -/

/-- **C114, the map**.  Whatever the field element, the map of the suite gives coordinates of a
point of the curve; the parity of the y-coordinate is that of the element. -/
theorem C114_map {S : Suite} {c : Curve} {id : Int} (hS : IsSuite S c id) (u : Nat) :
    IsPoint c.p c.a c.b (mapToCurve S u).1 (mapToCurve S u).2 ∧
      (mapToCurve S u).2 % 2 = (u : Int) % 2 := by
  have h := hS.ok
  have hf : Fact S.p.Prime := ⟨h.prime⟩
  obtain ⟨gx, gy, hn, hp, ha, hb⟩ := hS.named
  obtain ⟨x, s, x0, x1, s0, s1, heq, hm⟩ := h.map_xy u
  have hp0 : (0 : Int) < S.p := by exact_mod_cast h.prime.pos
  have hodd : (S.p : Int) % 2 = 1 := by have := h.mod4; omega
  have hpt : IsPoint c.p c.a c.b x s := by
    rw [← isPoint_iff, onCurve_iff, hp, ha, hb]
    refine ⟨x0, x1, s0, s1, ?_⟩
    rw [← Int.dvd_iff_emod_eq_zero, ← ZMod.intCast_zmod_eq_zero_iff_dvd]
    push_cast
    linear_combination heq
  obtain ⟨hs, hneg, -, -⟩ := C111_two_points hn hpt
  have hne : (-s) % (S.p : Int) = c.p - s := by
    rw [hp, ← Int.add_emod_left]
    exact Int.emod_eq_of_lt (by omega) (by omega)
  rw [hm]
  dsimp only
  split
  · rename_i hpar
    exact ⟨hpt, hpar.symm⟩
  · rename_i hpar
    rw [hne]
    refine ⟨hneg, ?_⟩
    rw [hp]
    omega

/-- **C114, opposite elements**.  The element `p - u` is sent to the opposite point. -/
theorem C114_opposite {S : Suite} {c : Curve} {id : Int} (hS : IsSuite S c id) {u : Nat}
    (h1 : u < S.p) :
    mapToCurve S (S.p - u) = ((mapToCurve S u).1, c.p - (mapToCurve S u).2) := by
  have h := hS.ok
  have hf : Fact S.p.Prime := ⟨h.prime⟩
  obtain ⟨gx, gy, hn, hp, ha, hb⟩ := hS.named
  have hodd : (S.p : Int) % 2 = 1 := by have := h.mod4; omega
  have hc : (((S.p - u : Nat) : Int)) = (S.p : Int) - u := by omega
  have et : S.z * ((S.p - u : Nat) : Int) ^ 2 % (S.p : Int) = S.z * (u : Int) ^ 2 % (S.p : Int) := by
    rw [hc]
    exact Int.ModEq.eq (Int.modEq_iff_dvd.2 ⟨S.z * (2 * u - S.p), by ring⟩)
  have e1 : S.x1 (S.p - u) = S.x1 u := by unfold Suite.x1; simp only [et]
  have e2 : S.x2 (S.p - u) = S.x2 u := by unfold Suite.x2; rw [et, e1]
  obtain ⟨m1, m2⟩ := C114_map hS u
  obtain ⟨n1, n2⟩ := C114_map hS (S.p - u)
  have ex : (mapToCurve S (S.p - u)).1 = (mapToCurve S u).1 := by
    unfold mapToCurve
    simp only [e1, e2]
  obtain ⟨-, hneg, -, hall⟩ := C111_two_points hn m1
  rw [ex] at n1
  refine Prod.ext ex ?_
  rcases hall _ n1 with hy | hy
  · exfalso
    rw [hy, hc] at n2
    omega
  · exact hy

/-! ### The two functions of ec_group.cc -/

/-- The library implements RFC 9380 (with the hash functions `H`): the encodings are as in section 3,
and the hash is the sum of the two points, in the group of the curve.  RFC 9380, 3.1 excludes the
empty tag. -/
structure Implements (H : Hashes) (lib : Lib) : Prop where
  encodeP256 : ∀ dst m, dst ≠ [] → lib.encodeP256 dst m = some (encodeToCurve p256Suite H dst m)
  encodeP384 : ∀ dst m, dst ≠ [] → lib.encodeP384 dst m = some (encodeToCurve p384Suite H dst m)
  hashP256 : ∀ [Fact q256.Prime] dst m (P Q : (Curve.p256.W q256).Point), dst ≠ [] →
    Curve.p256.ofPoint P = (hashSummands p256Suite H dst m).1 →
    Curve.p256.ofPoint Q = (hashSummands p256Suite H dst m).2 →
    lib.hashP256 dst m = some (Curve.p256.ofPoint (P + Q))
  hashP384 : ∀ [Fact q384.Prime] dst m (P Q : (Curve.p384.W q384).Point), dst ≠ [] →
    Curve.p384.ofPoint P = (hashSummands p384Suite H dst m).1 →
    Curve.p384.ofPoint Q = (hashSummands p384Suite H dst m).2 →
    lib.hashP384 dst m = some (Curve.p384.ofPoint (P + Q))

/-- **C114, `GetPointByHashingToCurveSswuNu`**.  On P-256 and P-384 every message and every tag give
a point of the curve, never the point at infinity. -/
theorem C114_nu {S : Suite} {c : Curve} {id : Int} (hS : IsSuite S c id) {H : Hashes} {lib : Lib}
    (hl : Implements H lib) (m : Bytes) {dst : Bytes} (hd : dst ≠ []) :
    ∃ x y, getPointNu lib id m dst = .ok (.aff x y) ∧ IsPoint c.p c.a c.b x y := by
  refine ⟨_, _, ?_, (C114_map hS (hashToField S H m dst 1 0)).1⟩
  cases hS
  · simp only [getPointNu, getPointAtInfinity, Res.ok_bind, if_true, hl.encodeP256 _ _ hd, called]
    rfl
  · simp only [getPointNu, getPointAtInfinity, Res.ok_bind, hl.encodeP384 _ _ hd, called]
    rfl

/-- The two points of the hash, and their sum. -/
theorem summands {S : Suite} {c : Curve} {id : Int} (hS : IsSuite S c id) [Fact S.p.Prime]
    {H : Hashes} {lib : Lib} (hl : Implements H lib) (m : Bytes) {dst : Bytes} (hd : dst ≠ []) :
    ∃ P Q : (c.W S.p).Point, P ≠ 0 ∧
      c.ofPoint P = (hashSummands S H dst m).1 ∧ c.ofPoint Q = (hashSummands S H dst m).2 ∧
      getPointRo lib id m dst = .ok (c.ofPoint (P + Q)) := by
  obtain ⟨gx, gy, hn, hp, ha, hb⟩ := hS.named
  have hc := hn.certified
  obtain ⟨P, -, hP, hP0⟩ := toPoint_of_onCurve hc.proper hc.smooth
    ((isPoint_iff _ _ _).2 (C114_map hS (hashToField S H m dst 2 0)).1)
  obtain ⟨Q, -, hQ, -⟩ := toPoint_of_onCurve hc.proper hc.smooth
    ((isPoint_iff _ _ _).2 (C114_map hS (hashToField S H m dst 2 1)).1)
  refine ⟨P, Q, hP0, hP, hQ, ?_⟩
  cases hS
  · have hf : Fact q256.Prime := ‹_›
    simp only [getPointRo, getPointAtInfinity, Res.ok_bind, if_true]
    rw [hl.hashP256 dst m P Q hd hP hQ]
    rfl
  · have hf : Fact q384.Prime := ‹_›
    simp only [getPointRo, getPointAtInfinity, Res.ok_bind, show ¬ ((715 : Int) = 415) by decide,
      if_false, if_true]
    rw [hl.hashP384 dst m P Q hd hP hQ]
    rfl

theorem ofPoint_inj {c : Curve} {q : Nat} [Fact q.Prime] {P Q : (c.W q).Point}
    (h : c.ofPoint P = c.ofPoint Q) : P = Q := by
  have := congrArg (c.toPoint? q) h
  rw [toPoint_ofPoint, toPoint_ofPoint] at this
  exact Option.some.inj this

theorem ofPoint_neg {c : Curve} {q : Nat} {gx gy : Int} (hn : Named c q gx gy) [Fact q.Prime]
    {P : (c.W q).Point} {x y : Int} (h : c.ofPoint P = .aff x y) :
    c.ofPoint (-P) = .aff x (c.p - y) := by
  have hc := hn.certified
  cases P with
  | zero => cases h
  | some a b hab =>
    have hpt := (isPoint_iff _ _ _).1 (ofPoint_onCurve hc.proper a b hab)
    injection h with h1 h2
    have hy := (C111_two_points hn hpt).1
    rw [← h1, ← h2, WeierstrassCurve.Affine.Point.neg_some]
    have hb : b ≠ 0 := by
      rintro rfl
      simp at hy
    have : NeZero b := ⟨hb⟩
    have hlt := ZMod.val_lt b
    simp only [ofPoint, WeierstrassCurve.Affine.negY, zero_mul, sub_zero, ZMod.val_neg_of_ne_zero,
      hc.proper.hp]
    rw [Nat.cast_sub hlt.le]

/-- **C114, `GetPointByHashingToCurveSswuRo`**.  On P-256 and P-384 every message and every tag give
a point of the curve or the point at infinity; the latter exactly when the two points that are added
are opposite. -/
theorem C114_ro {S : Suite} {c : Curve} {id : Int} (hS : IsSuite S c id) {H : Hashes} {lib : Lib}
    (hl : Implements H lib) (m : Bytes) {dst : Bytes} (hd : dst ≠ []) :
    ∃ P, getPointRo lib id m dst = .ok P ∧
      (P = .inf ∨ ∃ x y, P = .aff x y ∧ IsPoint c.p c.a c.b x y) ∧
      (P = .inf ↔ ∃ x y, (hashSummands S H dst m).1 = .aff x y ∧
        (hashSummands S H dst m).2 = .aff x (c.p - y)) := by
  have hf : Fact S.p.Prime := ⟨hS.ok.prime⟩
  obtain ⟨gx, gy, hn, hp, ha, hb⟩ := hS.named
  have hc := hn.certified
  obtain ⟨P, Q, hP0, hP, hQ, h⟩ := summands hS hl m hd
  refine ⟨_, h, ?_, ?_⟩
  · generalize P + Q = R
    cases R with
    | zero => exact Or.inl rfl
    | some x y hxy =>
      exact Or.inr ⟨_, _, rfl, (isPoint_iff _ _ _).1 (ofPoint_onCurve hc.proper x y hxy)⟩
  · rw [← hP, ← hQ]
    constructor
    · intro h0
      have h1 : P + Q = 0 := ofPoint_inj h0
      have h2 : Q = -P := by rw [eq_neg_iff_add_eq_zero, add_comm]; exact h1
      exact ⟨_, _, hP, by rw [h2]; exact ofPoint_neg hn hP⟩
    · rintro ⟨x, y, e1, e2⟩
      have h2 : Q = -P := ofPoint_inj (e2.trans (ofPoint_neg hn e1).symm)
      rw [h2, add_neg_cancel]
      rfl

/-- **C114, other curves**.  The two functions refuse every other curve. -/
theorem C114_other_curves (lib : Lib) (id : Int) (h1 : id ≠ 415) (h2 : id ≠ 715) (m dst : Bytes) :
    getPointRo lib id m dst = .err .invalidArgument ∧
      getPointNu lib id m dst = .err .invalidArgument := by
  simp [getPointRo, getPointNu, getPointAtInfinity, h1, h2]

/-- **C114, failures of the library** are reported as Internal. -/
theorem C114_library_failures (lib : Lib) (m dst : Bytes) :
    (lib.hashP256 dst m = none → getPointRo lib 415 m dst = .err .internal) ∧
    (lib.hashP384 dst m = none → getPointRo lib 715 m dst = .err .internal) ∧
    (lib.encodeP256 dst m = none → getPointNu lib 415 m dst = .err .internal) ∧
    (lib.encodeP384 dst m = none → getPointNu lib 715 m dst = .err .internal) := by
  refine ⟨fun h => ?_, fun h => ?_, fun h => ?_, fun h => ?_⟩ <;>
    simp [getPointRo, getPointNu, getPointAtInfinity, called, h]

/-! ### The cipher -/

/-- The group object of a curve, hashing with SSWU as ec_group.cc does. -/
noncomputable def group (c : Curve) (q : Nat) [Fact q.Prime] (gx gy : Int) (H : Hashes)
    (sqrt : BigNum → BigNum → Res BigNum) (fuel : Nat) (lib : Lib) (id : Int) :
    EcGroup (c.W q).Point :=
  c.toEcGroup q (c.basePoint q gx gy) H sqrt fuel
    (fun m dst => c.liftHash q (some (getPointRo lib id m dst)))

/-- **C114, the cipher**.  A cipher with SSWU hashing on P-256 or P-384 encrypts every string, to
the encoding of its key times the hash, unless the two points of the hash are opposite; then it
fails, with Internal. -/
theorem C114_cipher {S : Suite} {c : Curve} {id gx gy : Int} (hS : IsSuite S c id)
    [Fact S.p.Prime] (hn : Named c S.p gx gy) {H : Hashes} {lib : Lib} (hl : Implements H lib)
    (H' : Hashes) (sqrt : BigNum → BigNum → Res BigNum) (fuel : Nat) {K : EcCipher (c.W S.p).Point}
    (hK : CipherOf (group c S.p gx gy H' sqrt fuel lib id) .sswuRo K) (a : Bytes) :
    ((∃ x y, (hashSummands S H (str "ECCommutativeCipher") a).1 = .aff x y ∧
        (hashSummands S H (str "ECCommutativeCipher") a).2 = .aff x (c.p - y)) →
      K.encrypt a = .err .internal ∧ K.hashToTheCurve a = .err .internal) ∧
    ((¬ ∃ x y, (hashSummands S H (str "ECCommutativeCipher") a).1 = .aff x y ∧
        (hashSummands S H (str "ECCommutativeCipher") a).2 = .aff x (c.p - y)) →
      ∃ P : (c.W S.p).Point, P ≠ 0 ∧
        getPointRo lib id a (str "ECCommutativeCipher") = .ok (c.ofPoint P) ∧
        ∃ ct bs, K.encrypt a = .ok ct ∧ c.point2oct (c.ofPoint (K.privateKey • P)) = some ct ∧
          K.decrypt ct = .ok bs ∧ K.hashToTheCurve a = .ok bs ∧
          c.point2oct (c.ofPoint P) = some bs) := by
  have hE : (group c S.p gx gy H' sqrt fuel lib id).Lawful := C111_lawful hn _ _ _ _
  obtain ⟨P, Q, -, hP, hQ, h⟩ := summands hS hl a (dst := str "ECCommutativeCipher") (by decide)
  obtain ⟨R, hR, -, hinf⟩ := C114_ro hS hl a (dst := str "ECCommutativeCipher") (by decide)
  have hhash : hashOf (group c S.p gx gy H' sqrt fuel lib id) .sswuRo a = .ok (P + Q) := by
    show c.liftHash S.p (some (getPointRo lib id a (str "ECCommutativeCipher"))) = _
    rw [h]
    simp only [liftHash, toPoint_ofPoint]
  obtain ⟨v1, v2⟩ := C20_values _ hE _ K hK a
  rw [hhash, Res.ok_bind] at v1 v2
  have e : R = c.ofPoint (P + Q) := by
    rw [hR] at h
    injection h
  have hz : R = .inf ↔ P + Q = 0 := by
    rw [e]
    exact ⟨fun h0 => ofPoint_inj h0, fun h0 => by rw [h0]; rfl⟩
  rw [hz] at hinf
  constructor
  · intro hex
    rw [hinf.2 hex] at v1 v2
    rw [zsmul_zero] at v2
    exact ⟨v2.trans hE.toBytes_zero, v1.trans hE.toBytes_zero⟩
  · intro hex
    have h0 : P + Q ≠ 0 := fun h0 => hex (hinf.1 h0)
    have h1 := (hK.good hE).smul_ne hE h0
    obtain ⟨bs, hb, -⟩ := hE.toBytes_ne h0
    obtain ⟨ct, hct, -⟩ := hE.toBytes_ne h1
    have oct : ∀ {X : (c.W S.p).Point} {w : Bytes},
        (group c S.p gx gy H' sqrt fuel lib id).toBytesCompressed X = .ok w →
        c.point2oct (c.ofPoint X) = some w := by
      intro X w hw
      unfold EcGroup.toBytesCompressed at hw
      change (match c.point2oct (c.ofPoint X) with
        | some bs => Res.ok bs | none => .err .internal) = .ok w at hw
      split at hw
      · rename_i bs hbs
        cases hw
        exact hbs
      · cases hw
    have hd := C19_decrypt_encrypt _ hE _ K hK a
    rw [v2, hct, v1, hb] at hd
    exact ⟨P + Q, h0, h, ct, bs, v2.trans hct, oct hct, hd, v1.trans hb, oct hb⟩

/-- **C114, the cipher on other curves**.  `CreateWithNewKey` and `CreateFromKey` accept the SSWU
hash type on a curve for which there is no such hash, and every use of the cipher's hash then fails
with InvalidArgument. -/
theorem C114_unsupported_curve {c : Curve} {q : Nat} {id gx gy : Int} [Fact q.Prime]
    (hn : Named c q gx gy) (h1 : id ≠ 415) (h2 : id ≠ 715) (lib : Lib)
    (H : Hashes) (sqrt : BigNum → BigNum → Res BigNum) (fuel : Nat) :
    (∀ w, (EcCipher.createWithNewKey (.ok (group c q gx gy H sqrt fuel lib id)) .sswuRo w).isOk) ∧
    (∀ K, CipherOf (group c q gx gy H sqrt fuel lib id) .sswuRo K → ∀ a,
      K.encrypt a = .err .invalidArgument ∧ K.hashToTheCurve a = .err .invalidArgument) := by
  have hE : (group c q gx gy H sqrt fuel lib id).Lawful := C111_lawful hn _ _ _ _
  constructor
  · intro w
    obtain ⟨k, hk, k1, k2⟩ := hE.generatePrivateKey_spec w
    obtain ⟨K, hK, -⟩ := EcCipher.make_good (t := .sswuRo) hE k1 k2
    exact ⟨K, by simp [EcCipher.createWithNewKey, EcCipher.validateHashType, hk, hK]⟩
  · intro K hK a
    obtain ⟨v1, v2⟩ := C20_values _ hE _ K hK a
    have hhash : hashOf (group c q gx gy H sqrt fuel lib id) .sswuRo a = .err .invalidArgument := by
      show c.liftHash q (some (getPointRo lib id a (str "ECCommutativeCipher"))) = _
      rw [(C114_other_curves lib id h1 h2 a _).1]
      rfl
    rw [hhash] at v1 v2
    exact ⟨v2, v1⟩

/-! ### Examples -/

/-- A library that implements RFC 9380. -/
noncomputable def rfcLib [Fact q256.Prime] [Fact q384.Prime] (H : Hashes) : Lib where
  encodeP256 dst m := some (encodeToCurve p256Suite H dst m)
  encodeP384 dst m := some (encodeToCurve p384Suite H dst m)
  hashP256 dst m :=
    let s := hashSummands p256Suite H dst m
    some (Curve.p256.ofPoint (((Curve.p256.toPoint? q256 s.1).getD 0) +
      ((Curve.p256.toPoint? q256 s.2).getD 0)))
  hashP384 dst m :=
    let s := hashSummands p384Suite H dst m
    some (Curve.p384.ofPoint (((Curve.p384.toPoint? q384 s.1).getD 0) +
      ((Curve.p384.toPoint? q384 s.2).getD 0)))

theorem rfcLib_implements [Fact q256.Prime] [Fact q384.Prime] (H : Hashes) :
    Implements H (rfcLib H) where
  encodeP256 _ _ _ := rfl
  encodeP384 _ _ _ := rfl
  hashP256 dst m P Q _ hP hQ := by
    simp only [rfcLib, ← hP, ← hQ, toPoint_ofPoint, Option.getD_some]
  hashP384 dst m P Q _ hP hQ := by
    simp only [rfcLib, ← hP, ← hQ, toPoint_ofPoint, Option.getD_some]

/-- RFC 9380, J.1.1, message "": the two points that are added for P-256. -/
example : mapToCurve p256Suite
    0xad5342c66a6dd0ff080df1da0ea1c04b96e0330dd89406465eeba11582515009 =
    (0xab640a12220d3ff283510ff3f4b1953d09fad35795140b1c5d64f313967934d5,
      0xdccb558863804a881d4fff3455716c836cef230e5209594ddd33d85c565b19b1) := by decide +kernel

example : mapToCurve p256Suite
    0x8c0f1d43204bd6f6ea70ae8013070a1518b43873bcd850aafa0a9e220e2eea5a =
    (0x51cce63c50d972a6e51c61334f0f4875c9ac1cd2d3238412f84e31da7d980ef5,
      0xb45d1a36d00ad90e5ec7840a60a4de411917fbe7c82c3949a6e699e5a1b66aac) := by decide +kernel

/-- RFC 9380, J.3.1, message "": the first of the points for P-384. -/
example : mapToCurve p384Suite
    0x25c8d7dc1acd4ee617766693f7f8829396065d1b447eedb155871feffd9c6653279ac7e5c46edb7010a0e4ff64c9f3b4 =
    (0xe4717e29eef38d862bee4902a7d21b44efb58c464e3e1f0d03894d94de310f8ffc6de86786dd3e15a1541b18d4eb2846,
      0x6b95a6e639822312298a47526bb77d9cd7bcf76244c991c8cd70075e2ee6e8b9a135c4a37e3c0768c7ca871c0ceb53d4) := by
  decide +kernel

/-- Hash functions under which a message is sent to the elements 1 and p - 1 of the field of P-256:
the answer depends on the number of the block. -/
def oppositeHashes : Hashes where
  sha256 d :=
    let b2b3 : List Byte := List.replicate 15 0 ++ [1] ++ List.replicate 16 0 ++
      (BN.natToBytes (q256 - 1))
    if (d.reverse.drop 20).head? = some 2 then b2b3.take 32
    else if (d.reverse.drop 20).head? = some 3 then b2b3.drop 32
    else List.replicate 32 0
  sha384 _ := []
  sha512 _ := []
  hmacSha512 _ _ := []

theorem oppositeHashes_summands :
    ∃ x y, (hashSummands p256Suite oppositeHashes (str "ECCommutativeCipher") (str "a")).1 = .aff x y ∧
      (hashSummands p256Suite oppositeHashes (str "ECCommutativeCipher") (str "a")).2 =
        .aff x (Curve.p256.p - y) := by
  have h0 : hashToField p256Suite oppositeHashes (str "a") (str "ECCommutativeCipher") 2 0 = 1 := by
    decide +kernel
  have h1 : hashToField p256Suite oppositeHashes (str "a") (str "ECCommutativeCipher") 2 1 =
      p256Suite.p - 1 := by
    decide +kernel
  have ho := C114_opposite .p256 (u := 1) (by decide +kernel)
  refine ⟨_, _, rfl, ?_⟩
  simp only [hashSummands]
  rw [h0, h1, ho]

/-- The full statement: a cipher with SSWU hashing on a supported curve encrypts every string. -/
def C114Statement : Prop :=
  ∀ (H : Hashes) (lib : Lib) (_ : Fact q256.Prime), Implements H lib → ∀ sqrt fuel
    (K : EcCipher (Curve.p256.W q256).Point),
    CipherOf (group Curve.p256 q256 p256Gx p256Gy H sqrt fuel lib 415) .sswuRo K →
    ∀ a, (K.encrypt a).isOk

/-- **C114, the exception**.  Nothing in the code excludes that a string is hashed to the point at
infinity; whether one exists depends on the hash function. -/
theorem C114_always_encrypts_fails : ¬ C114Statement := by
  intro h
  have hf : Fact q256.Prime := ⟨p256Suite_ok.prime⟩
  have hf' : Fact q384.Prime := ⟨p384Suite_ok.prime⟩
  have hl := rfcLib_implements oppositeHashes
  obtain ⟨K, hK, -⟩ := cipherOf_exists
    (C111_lawful .p256 oppositeHashes (fun _ _ => .crash) 0
      (fun m dst => Curve.p256.liftHash q256 (some (getPointRo (rfcLib oppositeHashes) 415 m dst))))
    (t := .sswuRo) (by decide) (k := 1) le_rfl p256_certified.prime.one_lt
  obtain ⟨ct, hct⟩ := h oppositeHashes _ hf hl _ _ K hK (str "a")
  have hs : Fact p256Suite.p.Prime := hf
  have := ((C114_cipher (S := p256Suite) .p256 .p256 hl oppositeHashes _ _ hK (str "a")).1
    oppositeHashes_summands).1
  have e : Res.ok ct = .err .internal := hct.symm.trans this
  cases e

/-- P-224 (713) is one of the curves without SSWU. -/
example (lib : Lib) : getPointRo lib 713 (str "a") (str "t") = .err .invalidArgument :=
  (C114_other_curves lib 713 (by decide) (by decide) _ _).1

end PJC.Sswu
