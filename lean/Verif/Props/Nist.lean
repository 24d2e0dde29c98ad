import Verif.Lemmas.Nist
import Verif.Model.EcCreate
import Verif.Props.Interop
import Verif.Props.Protocol
/-
C111: the curves the programs name (P-224, P-256, P-384) have the prime order that the
code relies on; and the properties of the protocol and of the hashes on these curves.
-/
namespace PJC
namespace Curve

/-! ### C111: prime fields, prime orders -/

/-- Specification: the number of points of y^2 = x^3 + a x + b over the integers modulo q,
the point at infinity included. -/
noncomputable def numPoints (q : Nat) (a b : Int) : Nat :=
  Nat.card {xy : ZMod q × ZMod q // xy.2 ^ 2 = xy.1 ^ 3 + a * xy.1 + b} + 1

theorem nonsingular_iff {p : Nat} [Fact p.Prime] {c : Curve} (hc : c.Proper p)
    (hs : c.Smooth p) (x y : ZMod p) :
    (c.W p).Nonsingular x y ↔ y ^ 2 = x ^ 3 + c.a * x + c.b := by
  have hp0 : NeZero p := ⟨hc.prime.ne_zero⟩
  constructor
  · intro h
    have := ((c.W p).equation_iff x y).1 h.1
    simp only at this
    linear_combination this
  · intro h
    have hE : (c.W p).Equation x y := by
      rw [(c.W p).equation_iff]
      simp only
      linear_combination h
    have hon : c.onCurve (x.val : Int) (y.val : Int) = true := by
      rw [onCurve_iff, hc.hp]
      refine ⟨by positivity, by exact_mod_cast ZMod.val_lt x, by positivity,
        by exact_mod_cast ZMod.val_lt y, ?_⟩
      rw [← equation_iff_mod]
      simpa using hE
    obtain ⟨P, h1, -⟩ := toPoint_of_onCurve hc hs hon
    obtain ⟨hN, -⟩ := has_of_toPoint h1
    simpa using hN

theorem numPoints_eq {p : Nat} [Fact p.Prime] {c : Curve} (hc : c.Proper p) (hs : c.Smooth p) :
    numPoints p c.a c.b = Nat.card (c.W p).Point := by
  have hp0 : NeZero p := ⟨hc.prime.ne_zero⟩
  rw [numPoints, Nat.card_congr (WeierstrassCurve.Affine.nonsingularPointEquiv (c.W p))]
  have e : {xy : ZMod p × ZMod p // (c.W p).Nonsingular xy.1 xy.2} ≃
      {xy : ZMod p × ZMod p // xy.2 ^ 2 = xy.1 ^ 3 + c.a * xy.1 + c.b} :=
    Equiv.subtypeEquivRight fun xy => nonsingular_iff hc hs xy.1 xy.2
  rw [show Nat.card (WithZero {xy : ZMod p × ZMod p // (c.W p).Nonsingular xy.1 xy.2})
    = Nat.card (Option {xy : ZMod p × ZMod p // xy.2 ^ 2 = xy.1 ^ 3 + c.a * xy.1 + c.b}) from
    Nat.card_congr (Equiv.optionCongr e)]
  rw [Finite.card_option]

/-- The named curves with their field primes and base points. -/
inductive Named : Curve → Nat → Int → Int → Prop where
  | p224 : Named Curve.p224 q224 p224Gx p224Gy
  | p256 : Named Curve.p256 q256 p256Gx p256Gy
  | p384 : Named Curve.p384 q384 p384Gx p384Gy

theorem Named.certified {c : Curve} {q : Nat} {gx gy : Int} (h : Named c q gx gy) :
    c.Certified q gx gy := by
  cases h
  · exact p224_certified
  · exact p256_certified
  · exact p384_certified

/-- **C111, prime orders**.  For each of P-224, P-256 and P-384: the field is an odd prime
field, the curve has exactly as many points as its parameters say, that number is prime,
and the base point is one of them. -/
theorem C111_prime_order {c : Curve} {q : Nat} {gx gy : Int} (h : Named c q gx gy) :
    c.p = q ∧ q.Prime ∧ q ≠ 2 ∧ numPoints q c.a c.b = c.order ∧ c.order.Prime ∧
      IsPoint c.p c.a c.b gx gy := by
  have hc := h.certified
  have hf : Fact q.Prime := ⟨hc.proper.prime⟩
  exact ⟨hc.proper.hp, hc.proper.prime, hc.proper.odd,
    (numPoints_eq hc.proper hc.smooth).trans hc.card, hc.prime, (isPoint_iff _ _ _).1 hc.base⟩

/-- The base point as an element of the group. -/
noncomputable def basePoint (c : Curve) (p : Nat) [Fact p.Prime] (gx gy : Int) : (c.W p).Point :=
  (c.toPoint? p (.aff gx gy)).getD 0

theorem Certified.basePoint_ne {c : Curve} {q : Nat} {gx gy : Int} (h : c.Certified q gx gy)
    [Fact q.Prime] : c.basePoint q gx gy ≠ 0 := by
  obtain ⟨P, h1, -, h2⟩ := toPoint_of_onCurve h.proper h.smooth h.base
  rw [basePoint, h1]
  exact h2

/-- **C111, groups**.  The group object for each of these curves meets everything that the
theorems about ciphers, ElGamal and the protocol assume of a group, for every hash function,
square root and bound on the rounds of the hash. -/
theorem C111_lawful {c : Curve} {q : Nat} {gx gy : Int} (h : Named c q gx gy) [Fact q.Prime]
    (H : Hashes) (sqrt : BigNum → BigNum → Res BigNum) (fuel : Nat)
    (sswu : Bytes → Bytes → Res (c.W q).Point) :
    (c.toEcGroup q (c.basePoint q gx gy) H sqrt fuel sswu).Lawful :=
  toEcGroup_lawful h.certified.proper _ h.certified.basePoint_ne h.certified.prime
    h.certified.card H sqrt fuel sswu

/-- **C111, no short points**.  No point of these curves has y-coordinate zero, so doubling
never meets a point of order two, and every x-coordinate of a point belongs to exactly two
points. -/
theorem C111_two_points {c : Curve} {q : Nat} {gx gy : Int} (h : Named c q gx gy) {x y : Int}
    (hp : IsPoint c.p c.a c.b x y) :
    y ≠ 0 ∧ IsPoint c.p c.a c.b x (c.p - y) ∧ y ≠ c.p - y ∧
      ∀ z, IsPoint c.p c.a c.b x z → z = y ∨ z = c.p - y := by
  have hc := h.certified
  have hf : Fact q.Prime := ⟨hc.proper.prime⟩
  have hodd : q % 2 = 1 := (hc.proper.prime.eq_two_or_odd).resolve_left hc.proper.odd
  have hpq := hc.proper.hp
  obtain ⟨x0, x1, y0, y1, hd⟩ := hp
  have hy : y ≠ 0 := by
    rintro rfl
    apply hc.no_root (x : ZMod q)
    rw [hpq, ← ZMod.intCast_zmod_eq_zero_iff_dvd] at hd
    push_cast at hd
    linear_combination -hd
  have hneg : IsPoint c.p c.a c.b x (c.p - y) := by
    refine ⟨x0, x1, by omega, by omega, ?_⟩
    have : (c.p - y) ^ 2 - (x ^ 3 + c.a * x + c.b) =
        (y ^ 2 - (x ^ 3 + c.a * x + c.b)) + c.p * (c.p - 2 * y) := by ring
    rw [this]
    exact Int.dvd_add hd (Int.dvd_mul_right _ _)
  refine ⟨hy, hneg, by omega, ?_⟩
  rintro z ⟨-, -, z0, z1, hz⟩
  have e1 : ∀ w : Int, c.p ∣ w ^ 2 - (x ^ 3 + c.a * x + c.b) →
      (w * w - (x ^ 3 + c.a * x + c.b)) % (q : Int) = 0 := by
    intro w hw
    rw [← hpq, ← pow_two]
    exact Int.emod_eq_zero_of_dvd hw
  rw [hpq] at *
  by_cases hpar : z % 2 = y % 2
  · exact Or.inl (root_unique hc.proper.prime hc.proper.odd z0 z1 y0 y1 (e1 _ hz) (e1 _ hd) hpar)
  · obtain ⟨-, -, n0, n1, hn⟩ := hneg
    exact Or.inr (root_unique hc.proper.prime hc.proper.odd z0 z1 n0 n1 (e1 _ hz) (e1 _ hn)
      (by omega))

/-! ### `ECGroup::Create` -/

open EcCreate in
/-- A library that knows the three curves under their OpenSSL ids (and perhaps others). -/
def KnowsNist (lib : Int → Option LibGroup) : Prop :=
  lib 713 = some ⟨p224, 1⟩ ∧ lib 415 = some ⟨p256, 1⟩ ∧ lib 715 = some ⟨p384, 1⟩

open EcCreate in
/-- **C111, creation**.  With such a library `ECGroup::Create` succeeds for the ids of the
three curves; the object has the order that is the number of points, cofactor one, and
(p - 1) / 2; for an id the library does not know the result is INVALID_ARGUMENT, for a curve over
a modulus that is not prime INTERNAL. -/
theorem C111_create {lib : Int → Option LibGroup} (hlib : KnowsNist lib) (id : Int) :
    (∀ c, (id = 713 ∧ c = p224) ∨ (id = 415 ∧ c = p256) ∨ (id = 715 ∧ c = p384) →
      ∃ g, create lib id = .ok g ∧ g.curve = c ∧ g.order = numPoints c.p.toNat c.a c.b ∧
        g.cofactor = 1 ∧ 2 * g.pMinusOneOverTwo + 1 = c.p) ∧
    (lib id = none → create lib id = .err .invalidArgument) ∧
    (∀ g, lib id = some g → ¬ BN.isPrime g.curve.p → create lib id = .err .internal) := by
  have key : ∀ c q gx gy, Named c q gx gy → lib id = some ⟨c, 1⟩ →
      ∃ g, create lib id = .ok g ∧ g.curve = c ∧ g.order = numPoints c.p.toNat c.a c.b ∧
        g.cofactor = 1 ∧ 2 * g.pMinusOneOverTwo + 1 = c.p := by
    intro c q gx gy hn hl
    have hc := hn.certified
    obtain ⟨hp, hprime, h2, hnum, -, -⟩ := C111_prime_order hn
    have hodd : q % 2 = 1 := (hprime.eq_two_or_odd).resolve_left h2
    have hpr : BN.isPrime c.p := by
      rw [hp]
      exact ⟨by positivity, by simpa using hprime⟩
    have hhalf := hc.proper.half
    refine ⟨⟨c.order, 1, c, ((q / 2 : Nat) : Int)⟩, ?_, rfl, ?_, rfl, ?_⟩
    · simp only [create, createGroup, hl, Res.ok_bind, createOrder, createCofactor,
        createCurveParams, getPMinusOneOverTwo, hhalf, hpr, not_true_eq_false, if_false]
      rfl
    · rw [hp, Int.toNat_natCast, hnum]
    · rw [hp]
      simp only
      omega
  refine ⟨?_, fun h => ?_, fun g h hp => ?_⟩
  · rintro c (⟨rfl, rfl⟩ | ⟨rfl, rfl⟩ | ⟨rfl, rfl⟩)
    · exact key _ _ _ _ .p224 hlib.1
    · exact key _ _ _ _ .p256 hlib.2.1
    · exact key _ _ _ _ .p384 hlib.2.2
  · simp only [create, createGroup, h]
    rfl
  · simp only [create, createGroup, h, Res.ok_bind, createOrder, createCofactor, createCurveParams,
      hp, not_false_eq_true, if_true]
    rfl

open EcCreate in
/-- Such a library exists, and it does not know the id 1. -/
example : ∃ lib : Int → Option LibGroup, KnowsNist lib ∧ lib 1 = none :=
  ⟨fun id => if id = 713 then some ⟨p224, 1⟩ else if id = 415 then some ⟨p256, 1⟩
    else if id = 715 then some ⟨p384, 1⟩ else none, ⟨rfl, rfl, rfl⟩, rfl⟩

/-! ### A square root for primes that are 3 modulo 4 -/

/-- The power (p + 1) / 4, computed by squaring. -/
def powSqrt (fuel : Nat) (a m : BigNum) : Res BigNum :=
  .ok (powMod m.toNat fuel (a % m).toNat ((m.toNat + 1) / 4) : Nat)

theorem powSqrt_ok {p fuel : Nat} (hp : p.Prime) (h4 : p % 4 = 3) (hf : p < 2 ^ fuel) :
    SqrtOk (powSqrt fuel) p := by
  intro a z hz
  have hf' : Fact p.Prime := ⟨hp⟩
  have hp0 : (0 : Int) < p := by exact_mod_cast hp.pos
  refine ⟨_, rfl, by positivity, ?_, ?_⟩
  · rw [Int.toNat_natCast, powMod_eq _ _ _ _ (by omega)]
    exact_mod_cast Nat.mod_lt _ hp.pos
  · rw [Int.toNat_natCast, powMod_eq _ _ _ _ (by omega), ← cast_eq_zero]
    have h1 : (((a % p).toNat : Nat) : ZMod p) = a := by
      rw [← Int.cast_natCast, Int.toNat_of_nonneg (Int.emod_nonneg _ (ne_of_gt hp0)), cast_mod]
    have h2 : (a : ZMod p) = z * z := by
      have := (cast_eq_zero (p := p)).2 hz
      push_cast at this
      linear_combination -this
    push_cast
    rw [h1, h2, ← pow_two, ← pow_mul, ← pow_two, ← pow_mul,
      show 2 * ((p + 1) / 4 * 2) = p + 1 by omega, pow_succ, ZMod.pow_card, pow_two, sub_self]

theorem q256_sqrt : SqrtOk (powSqrt 256) q256 :=
  powSqrt_ok p256_certified.proper.prime (by decide +kernel) (by decide +kernel)

theorem q384_sqrt : SqrtOk (powSqrt 384) q384 :=
  powSqrt_ok p384_certified.proper.prime (by decide +kernel) (by decide +kernel)

/-- P-256 has a point at x-coordinate zero. -/
theorem p256_zero : IsPoint p256.p p256.a p256.b 0
    46263761741508638697010950048709651021688891777877937875096931459006746039284 :=
  (isPoint_iff _ _ _).1 (by decide +kernel)

/-- P-384 has a point at x-coordinate zero. -/
theorem p384_zero : IsPoint p384.p p384.a p384.b 0
    30017082221388971518894106348991640168976452688271173152896512808593110967955388133152647784159166630880192381431265 :=
  (isPoint_iff _ _ _).1 (by decide +kernel)

/-- P-224 has no point at x-coordinate zero. -/
theorem p224_zero (y : Int) : ¬ IsPoint p224.p p224.a p224.b 0 y := by
  intro h
  have hc := p224_certified
  have hf : Fact q224.Prime := ⟨hc.proper.prime⟩
  obtain ⟨-, -, -, -, hd⟩ := h
  rw [hc.proper.hp, ← ZMod.intCast_zmod_eq_zero_iff_dvd] at hd
  push_cast at hd
  have hb : (y : ZMod q224) ^ 2 = ((p224.b.toNat : Nat) : ZMod q224) := by
    have : (p224.b : ZMod q224) = ((p224.b.toNat : Nat) : ZMod q224) := by
      rw [← Int.cast_natCast]
      rfl
    rw [← this]
    linear_combination hd
  have h1 : powMod q224 224 p224.b.toNat ((q224 - 1) / 2) = q224 - 1 := by decide +kernel
  rw [powMod_eq _ _ _ _ (by decide +kernel)] at h1
  have h2 : ((p224.b.toNat : Nat) : ZMod q224) ^ ((q224 - 1) / 2) = ((q224 - 1 : Nat) : ZMod q224) := by
    have := congrArg (Nat.cast (R := ZMod q224)) h1
    rwa [ZMod.natCast_mod, Nat.cast_pow] at this
  rw [← hb, ← pow_mul, show 2 * ((q224 - 1) / 2) = q224 - 1 by decide +kernel] at h2
  have hy : (y : ZMod q224) ≠ 0 := by
    intro e
    rw [e, zero_pow (by decide +kernel)] at h2
    have : (q224 : ℕ) ∣ q224 - 1 := (ZMod.natCast_eq_zero_iff _ _).1 h2.symm
    revert this
    decide +kernel
  rw [ZMod.pow_card_sub_one_eq_one hy] at h2
  have : ((1 : Nat) : ZMod q224) = ((q224 - 1 : Nat) : ZMod q224) := by rw [← h2, Nat.cast_one]
  rw [ZMod.natCast_eq_natCast_iff] at this
  revert this
  decide +kernel

end Curve

namespace Interop
open Curve

/-- **C110, P-256 and P-384** (the curves that all three packages offer): for every string,
hash type and number of rounds, all three implementations have returned the same point, or
none has returned.  There are no exceptions. -/
theorem C110_p256_p384 {c : Curve} {q : Nat} (hcq : (c = p256 ∧ q = q256) ∨ (c = p384 ∧ q = q384))
    {sqrt : BigNum → BigNum → Res BigNum} (hs : SqrtOk sqrt q) {bc : Int → Option Int}
    (hbc : BcSqrt bc q) (L : Py.Lib) (hL : SqrtOk L.sqrt q) (H : Hashes) (hH : Sha2 H)
    (t : Hash) (fuel : Nat) (m : Bytes) :
    (∃ P, cppHash c H t sqrt fuel m = some (.ok P) ∧
      Java.hashIntoTheCurve c H t.java bc fuel m = some (.ok P) ∧
      Py.getPointByHashing L c H t.py fuel m = some (.ok P)) ∨
    (cppHash c H t sqrt fuel m = none ∧ Java.hashIntoTheCurve c H t.java bc fuel m = none ∧
      Py.getPointByHashing L c H t.py fuel m = none) := by
  rcases hcq with ⟨rfl, rfl⟩ | ⟨rfl, rfl⟩
  · exact C110_same_point p256_certified.proper (by decide +kernel) hs hbc L hL H hH t fuel m
      (fun x hx => (C111_two_points .p256 hx).1 rfl) (Or.inl ⟨_, p256_zero⟩)
  · exact C110_same_point p384_certified.proper (by decide +kernel) hs hbc L hL H hH t fuel m
      (fun x hx => (C111_two_points .p384 hx).1 rfl) (Or.inl ⟨_, p384_zero⟩)

/-- **C110, P-224** (the default curve of the Python cipher).  It has no point at
x-coordinate zero, so a string that the oracle sends to zero is hashed as the empty string
by the C++ and as one zero byte by Python.  Otherwise they agree: as long as zero is not
among the x-coordinates tried. -/
theorem C110_p224 {sqrt : BigNum → BigNum → Res BigNum} (hs : SqrtOk sqrt q224)
    {bc : Int → Option Int} (hbc : BcSqrt bc q224) (L : Py.Lib) (hL : SqrtOk L.sqrt q224)
    (H : Hashes) (hH : Sha2 H) (t : Hash) (fuel : Nat) (m : Bytes) :
    (cppOracle H t m p224.p = .ok 0 →
      cppHash p224 H t sqrt (fuel + 1) m = cppHash p224 H t sqrt fuel [] ∧
      Py.getPointByHashing L p224 H t.py (fuel + 1) m =
        Py.getPointByHashing L p224 H t.py fuel [0]) ∧
    ((∀ k, k < fuel → tried H t p224.p m k ≠ .ok 0) →
      (∃ P, cppHash p224 H t sqrt fuel m = some (.ok P) ∧
        Py.getPointByHashing L p224 H t.py fuel m = some (.ok P)) ∨
      (cppHash p224 H t sqrt fuel m = none ∧
        Py.getPointByHashing L p224 H t.py fuel m = none)) := by
  have hno : ∀ x, ¬ IsPoint p224.p p224.a p224.b x 0 :=
    fun x hx => (C111_two_points .p224 hx).1 rfl
  refine ⟨fun h0 => ?_, fun h => ?_⟩
  · obtain ⟨h1, -, h3⟩ := C110_zero p224_certified.proper (by decide +kernel) hs hbc L hL H hH t
      fuel m p224_zero h0
    exact ⟨h1, h3⟩
  · rcases C110_same_point p224_certified.proper (by decide +kernel) hs hbc L hL H hH t fuel m hno
      (Or.inr h) with ⟨P, h1, -, h3⟩ | ⟨h1, -, h3⟩
    · exact Or.inl ⟨P, h1, h3⟩
    · exact Or.inr ⟨h1, h3⟩

end Interop

/-! ### The protocol on P-256 -/

section Protocol
open Curve Protocol Props

instance : Fact q256.Prime := ⟨p256_certified.proper.prime⟩

/-- The group of the protocol programs: P-256, with any hash function, square root and
bound on the rounds of the hash. -/
noncomputable def p256Group (H : Hashes) (sqrt : BigNum → BigNum → Res BigNum) (fuel : Nat)
    (sswu : Bytes → Bytes → Res (p256.W q256).Point) : EcGroup (p256.W q256).Point :=
  p256.toEcGroup q256 (p256.basePoint q256 p256Gx p256Gy) H sqrt fuel sswu

theorem toEcGroup_hashSha256 (c : Curve) (p : Nat) [Fact p.Prime] (gen : (c.W p).Point)
    (H : Hashes) (sqrt : BigNum → BigNum → Res BigNum) (fuel : Nat)
    (sswu : Bytes → Bytes → Res (c.W p).Point) (m : Bytes) :
    (c.toEcGroup p gen H sqrt fuel sswu).hashSha256 m =
      c.liftHash p (c.hashSha256 H sqrt fuel m) := rfl

/-- A run on P-256: the search for a point stops for every identifier, no two identifiers
are hashed to the same point, and the Paillier primes are as `Setup` asks. -/
structure P256Setup (H : Hashes) (sqrt : BigNum → BigNum → Res BigNum) (fuel : Nat)
    (els : List Bytes) (vals : List Int) (inputs : List Bytes) (p q : Nat) : Prop where
  sqrt_ok : SqrtOk sqrt q256
  hash_stops : ∀ a ∈ els ++ inputs, p256.hashSha256 H sqrt fuel a ≠ none
  no_collision : ∀ a ∈ els ++ inputs, ∀ b ∈ els ++ inputs,
    p256.hashSha256 H sqrt fuel a = p256.hashSha256 H sqrt fuel b → a = b
  one_value_each : vals.length = els.length
  values : ∀ v ∈ vals, 0 ≤ v ∧ v < ((p * q : Nat) : Int) ^ 2
  safe_p : SafePrime p
  safe_q : SafePrime q
  gen_p : HasSmallGenerator p
  gen_q : HasSmallGenerator q
  two_lt_p : 2 < p
  two_lt_q : 2 < q
  ne : p ≠ q

theorem liftHash_p256 {H : Hashes} {sqrt : BigNum → BigNum → Res BigNum} (hs : SqrtOk sqrt q256)
    {fuel : Nat} {m : Bytes} (h : p256.hashSha256 H sqrt fuel m ≠ none) :
    ∃ P Q, p256.hashSha256 H sqrt fuel m = some (.ok P) ∧
      p256.liftHash q256 (p256.hashSha256 H sqrt fuel m) = .ok Q ∧ Q ≠ 0 ∧ p256.ofPoint Q = P := by
  obtain ⟨r, hr⟩ := Option.ne_none_iff_exists'.1 h
  have hok := C27_hash_never_fails p256_certified.proper (by decide +kernel) hs H fuel m r
    (Or.inl hr)
  cases r with
  | ok P =>
    obtain ⟨x, y, rfl, hp, -⟩ := C27_hash_valid p256_certified.proper hs H fuel m P (Or.inl hr)
    obtain ⟨Q, h1, h2, h3⟩ := toPoint_of_onCurve p256_certified.proper p256_certified.smooth
      ((isPoint_iff _ _ _).2 hp)
    exact ⟨_, Q, hr, by simp only [liftHash, hr, h1], h3, h2⟩
  | err e => obtain ⟨_, hok⟩ := hok; cases hok
  | crash => obtain ⟨_, hok⟩ := hok; cases hok
  | ub => obtain ⟨_, hok⟩ := hok; cases hok

theorem P256Setup.setup {H : Hashes} {sqrt : BigNum → BigNum → Res BigNum} {fuel : Nat}
    {els : List Bytes} {vals : List Int} {inputs : List Bytes} {p q : Nat}
    (h : P256Setup H sqrt fuel els vals inputs p q)
    (sswu : Bytes → Bytes → Res (p256.W q256).Point) :
    Setup (p256Group H sqrt fuel sswu) els vals inputs p q where
  lawful := C111_lawful .p256 H sqrt fuel sswu
  hash_ok a ha := by
    obtain ⟨P, Q, -, h2, h3, -⟩ := liftHash_p256 h.sqrt_ok (h.hash_stops a ha)
    exact ⟨Q, by rw [p256Group, toEcGroup_hashSha256, h2], h3⟩
  no_collision a ha b hb hab := by
    rw [p256Group, toEcGroup_hashSha256, toEcGroup_hashSha256] at hab
    obtain ⟨P, Q, h1, h2, -, h4⟩ := liftHash_p256 h.sqrt_ok (h.hash_stops a ha)
    obtain ⟨P', Q', h1', h2', -, h4'⟩ := liftHash_p256 h.sqrt_ok (h.hash_stops b hb)
    apply h.no_collision a ha b hb
    rw [h2, h2'] at hab
    cases hab
    rw [h1, h1', ← h4, ← h4']
  one_value_each := h.one_value_each
  values := h.values
  safe_p := h.safe_p
  safe_q := h.safe_q
  gen_p := h.gen_p
  gen_q := h.gen_q
  two_lt_p := h.two_lt_p
  two_lt_q := h.two_lt_q
  ne := h.ne

/-- **C01 on P-256**, the curve of the two programs: nothing is assumed of the group, its
laws are theorems. -/
theorem C01_p256 {H : Hashes} {sqrt : BigNum → BigNum → Res BigNum} {fuel : Nat}
    {els : List Bytes} {vals : List Int} {inputs : List Bytes} {p q : Nat}
    (h : P256Setup H sqrt fuel els vals inputs p q)
    (sswu : Bytes → Bytes → Res (p256.W q256).Point) (cfg cfg' : ExpCfg) (w : Nat)
    (r1 r2 : ServerRand) (k1 k2 : ClientRand) (hr1 : r1.Ok) (hr2 : r2.Ok) (hk1 : k1.Ok)
    (hnc : els.Nodup)
    (hsmall : (((els.zip vals).filter fun t => decide (t.1 ∈ inputs)).map Prod.snd).sum <
      ((p * q : Nat) : Int) ^ 2) :
    ∃ c c' s', Client.init cfg (.ok (p256Group H sqrt fuel sswu)) els vals p q w = .ok c ∧
      honestRun c (Server.init cfg' (.ok (p256Group H sqrt fuel sswu)) inputs) r1 r2 k1 k2 =
        some (c', s') ∧
      c'.finished = true ∧ s'.finished = true ∧
      c'.size = (els.filter fun a => decide (a ∈ inputs)).length ∧
      c'.sum = (((els.zip vals).filter fun t => decide (t.1 ∈ inputs)).map Prod.snd).sum ∧
      (c'.sum < 2 ^ 64 → c'.printOutput = .ok (c'.size, c'.sum.toNat)) := by
  obtain ⟨K, -, hinit⟩ := Client.init_ok (C111_lawful .p256 H sqrt fuel sswu) cfg els vals p q w
  obtain ⟨c', s', h'⟩ := C01_intersection_sum (h.setup sswu) cfg cfg' w _ hinit r1 r2 k1 k2 hr1 hr2
    hk1 hnc hsmall
  exact ⟨_, c', s', hinit, h'⟩

/-- A hash function for the example: `[1]` is sent to x-coordinate zero, everything else to
that of the base point. -/
def twoHashes : Hashes where
  sha256 d := if d = [2, 2] then BN.natToBytes p256Gx.toNat else []
  sha384 _ := []
  sha512 _ := []
  hmacSha512 _ _ := []

theorem hash_stops_of {H : Hashes} {m : Bytes} {x y : Int}
    (hx : Ctx.randomOracleSha256 H m p256.p = .ok x) (hp : IsPoint p256.p p256.a p256.b x y) :
    ∃ z, p256.hashSha256 H (powSqrt 256) 1 m = some (.ok (.aff x z)) := by
  obtain ⟨hx0, hx1, -⟩ := id hp
  rw [p256_certified.proper.hp] at hx1
  have := p256_certified.proper.hashInternal_spec q256_sqrt x
  rw [Int.emod_eq_of_lt hx0 hx1] at this
  rcases this with ⟨z, h1, -⟩ | ⟨-, h2⟩
  · exact ⟨z, by simp only [hashSha256, hashToCurve, hx, hashLoop, h1]⟩
  · exact absurd (h2 y ((isPoint_iff _ _ _).2 hp)) (C111_two_points .p256 hp).1

theorem twoSetup : P256Setup twoHashes (powSqrt 256) 1 [[1], [2]] [5, 9] [[2]] 7 11 := by
  obtain ⟨z1, h1⟩ := hash_stops_of (H := twoHashes) (m := [1]) (by decide +kernel) p256_zero
  obtain ⟨z2, h2⟩ := hash_stops_of (H := twoHashes) (m := [2]) (x := p256Gx) (by decide +kernel)
    ((isPoint_iff _ _ _).1 p256_certified.base)
  have hne : (0 : Int) ≠ p256Gx := by decide +kernel
  refine ⟨q256_sqrt, ?_, ?_, rfl, by decide, ⟨by norm_num, rfl, by norm_num⟩,
    ⟨by norm_num, rfl, by norm_num⟩, ⟨3, by norm_num, by norm_num, by norm_num⟩,
    ⟨2, by norm_num, by norm_num, by norm_num⟩, by norm_num, by norm_num, by norm_num⟩
  · intro a ha
    simp only [List.cons_append, List.nil_append, List.mem_cons, List.not_mem_nil, or_false] at ha
    rcases ha with rfl | rfl | rfl <;> simp [h1, h2]
  · intro a ha b hb
    simp only [List.cons_append, List.nil_append, List.mem_cons, List.not_mem_nil, or_false] at ha hb
    rcases ha with rfl | rfl | rfl <;> rcases hb with rfl | rfl | rfl <;>
      simp [h1, h2, hne, hne.symm]

/-- A run on P-256: of the client's identifiers 1 and 2 the server has 2. -/
example : ∃ c c' s', Client.init ⟨true, 64⟩
      (.ok (p256Group twoHashes (powSqrt 256) 1 fun _ _ => .crash)) [[1], [2]] [5, 9] 7 11 5 =
        .ok c ∧
    honestRun c (Server.init ⟨false, 64⟩
      (.ok (p256Group twoHashes (powSqrt 256) 1 fun _ _ => .crash)) [[2]]) toyServerRand
        toyServerRand toyClientRand toyClientRand = some (c', s') ∧ c'.size = 1 ∧ c'.sum = 9 := by
  obtain ⟨c, c', s', h1, h2, -, -, h3, h4, -⟩ := C01_p256 twoSetup (fun _ _ => .crash) ⟨true, 64⟩
    ⟨false, 64⟩ 5 toyServerRand toyServerRand toyClientRand toyClientRand toyServerRand_ok
    toyServerRand_ok toyClientRand_ok (by decide) (by decide)
  exact ⟨c, c', s', h1, h2, by rw [h3]; decide, by rw [h4]; decide⟩

end Protocol
end PJC
