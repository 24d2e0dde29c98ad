import Mathlib.Tactic.NormNum.Prime
import Verif.Lemmas.Weierstrass
import Verif.Props.Context
/-
C27, C28, C29: hashing and padding onto the curve, point encodings.
-/
namespace PJC
namespace Curve

/-- Specification: (x, y) are reduced coordinates of a point of y^2 = x^3 + a x + b
modulo p. -/
def IsPoint (p a b x y : Int) : Prop :=
  0 ≤ x ∧ x < p ∧ 0 ≤ y ∧ y < p ∧ p ∣ y ^ 2 - (x ^ 3 + a * x + b)

theorem isPoint_iff (c : Curve) (x y : Int) :
    c.onCurve x y = true ↔ IsPoint c.p c.a c.b x y := by
  rw [onCurve_iff, IsPoint, Int.dvd_iff_emod_eq_zero,
    show y ^ 2 - (x ^ 3 + c.a * x + c.b) = y * y - (x * x * x + c.a * x + c.b) by ring]

/-! ### C27 -/

theorem hashLoop_spec {c : Curve} {p : Nat} (h : c.Proper p)
    {sqrt : BigNum → BigNum → Res BigNum} (hs : SqrtOk sqrt p) (oracle : Bytes → Res BigNum) :
    ∀ (fuel : Nat) (x : BigNum) (P : RawPoint),
      c.hashLoop sqrt oracle fuel x = some (.ok P) →
      ∃ x y, P = .aff x y ∧ c.onCurve x y = true ∧ y % 2 = 0 ∧ y ≠ 0 := by
  intro fuel
  induction fuel with
  | zero => intro x P hP; cases hP
  | succ fuel ih =>
    intro x P hP
    rcases h.hashInternal_spec hs x with ⟨y, hy, hon, hev, hne⟩ | ⟨he, -⟩
    · simp only [hashLoop, hy, Option.some.injEq, Res.ok.injEq] at hP
      exact ⟨_, y, hP.symm, hon, hev, hne⟩
    · simp only [hashLoop, he] at hP
      split at hP
      · exact ih _ _ hP
      all_goals cases hP

/-- Every success of the hash is an affine point of the curve with even, nonzero
y-coordinate, whatever the hash function and whichever root the library returns. -/
theorem C27_hash_valid {c : Curve} {p : Nat} (h : c.Proper p)
    {sqrt : BigNum → BigNum → Res BigNum} (hs : SqrtOk sqrt p) (H : Hashes) (fuel : Nat)
    (m : Bytes) (P : RawPoint)
    (hP : c.hashSha256 H sqrt fuel m = some (.ok P) ∨ c.hashSha384 H sqrt fuel m = some (.ok P) ∨
      c.hashSha512 H sqrt fuel m = some (.ok P)) :
    ∃ x y, P = .aff x y ∧ IsPoint c.p c.a c.b x y ∧ y % 2 = 0 ∧ y ≠ 0 := by
  have key : ∀ oracle : Bytes → Res BigNum, c.hashToCurve sqrt oracle fuel m = some (.ok P) →
      ∃ x y, P = .aff x y ∧ IsPoint c.p c.a c.b x y ∧ y % 2 = 0 ∧ y ≠ 0 := by
    intro oracle hP
    simp only [hashToCurve] at hP
    split at hP
    · obtain ⟨x, y, h1, h2, h3⟩ := hashLoop_spec h hs oracle _ _ _ hP
      exact ⟨x, y, h1, (isPoint_iff c x y).1 h2, h3⟩
    all_goals cases hP
  rcases hP with hP | hP | hP <;> exact key _ hP

theorem hashInternal_indep {c : Curve} {p : Nat} (h : c.Proper p)
    {sqrt sqrt' : BigNum → BigNum → Res BigNum} (hs : SqrtOk sqrt p) (hs' : SqrtOk sqrt' p)
    (x : BigNum) : c.hashInternal sqrt x = c.hashInternal sqrt' x := by
  rcases h.hashInternal_spec hs x with ⟨y, hy, hon, hev, hne⟩ | ⟨he, hz⟩ <;>
    rcases h.hashInternal_spec hs' x with ⟨y', hy', hon', hev', hne'⟩ | ⟨he', hz'⟩
  · obtain ⟨-, -, a0, a1, a2⟩ := (c.onCurve_iff _ _).1 hon
    obtain ⟨-, -, b0, b1, b2⟩ := (c.onCurve_iff _ _).1 hon'
    rw [h.hp] at a1 a2 b1 b2
    have : y = y' := root_unique h.prime h.odd a0 a1 b0 b1 a2 b2 (by rw [hev, hev'])
    rw [hy, hy', this]
  · exact absurd (hz' _ hon) hne
  · exact absurd (hz _ hon') hne'
  · rw [he, he']

/-- Two square-root implementations, each free to return either root, give the same
point for every string, hash function and number of rounds. -/
theorem C27_hash_independent_of_sqrt {c : Curve} {p : Nat} (h : c.Proper p)
    {sqrt sqrt' : BigNum → BigNum → Res BigNum} (hs : SqrtOk sqrt p) (hs' : SqrtOk sqrt' p)
    (H : Hashes) (fuel : Nat) (m : Bytes) :
    c.hashSha256 H sqrt fuel m = c.hashSha256 H sqrt' fuel m ∧
    c.hashSha384 H sqrt fuel m = c.hashSha384 H sqrt' fuel m ∧
    c.hashSha512 H sqrt fuel m = c.hashSha512 H sqrt' fuel m := by
  have loop : ∀ (oracle : Bytes → Res BigNum) (fuel : Nat) (x : BigNum),
      c.hashLoop sqrt oracle fuel x = c.hashLoop sqrt' oracle fuel x := by
    intro oracle fuel
    induction fuel with
    | zero => intro x; rfl
    | succ n ih =>
      intro x
      simp only [hashLoop, hashInternal_indep h hs hs' x, ih]
  simp only [hashSha256, hashSha384, hashSha512, hashToCurve, loop, and_self]

/-- The number of rounds allowed does not change the result: once the loop has
returned, it is the result for every larger bound. -/
theorem C27_hash_deterministic (c : Curve) (sqrt : BigNum → BigNum → Res BigNum)
    (H : Hashes) (m : Bytes) {f₁ f₂ : Nat} {r₁ r₂ : Res RawPoint} :
    (c.hashSha256 H sqrt f₁ m = some r₁ → c.hashSha256 H sqrt f₂ m = some r₂ → r₁ = r₂) ∧
    (c.hashSha384 H sqrt f₁ m = some r₁ → c.hashSha384 H sqrt f₂ m = some r₂ → r₁ = r₂) ∧
    (c.hashSha512 H sqrt f₁ m = some r₁ → c.hashSha512 H sqrt f₂ m = some r₂ → r₁ = r₂) := by
  have loop : ∀ (oracle : Bytes → Res BigNum) (f₁ f₂ : Nat) (x : BigNum),
      c.hashLoop sqrt oracle f₁ x = some r₁ → c.hashLoop sqrt oracle f₂ x = some r₂ →
      r₁ = r₂ := by
    intro oracle f₁
    induction f₁ with
    | zero => intro f₂ x h1; cases h1
    | succ n ih =>
      intro f₂ x h1 h2
      cases f₂ with
      | zero => cases h2
      | succ k =>
        simp only [hashLoop] at h1 h2
        cases hh : c.hashInternal sqrt x with
        | err e =>
          simp only [hh] at h1 h2
          cases ho : (BN.toBytes x >>= oracle) with
          | ok x' => simp only [ho] at h1 h2; exact ih _ _ h1 h2
          | err e => simp only [ho] at h1 h2; cases h1; cases h2; rfl
          | crash => simp only [ho] at h1 h2; cases h1; cases h2; rfl
          | ub => simp only [ho] at h1 h2; cases h1; cases h2; rfl
        | ok P => simp only [hh] at h1 h2; cases h1; cases h2; rfl
        | crash => simp only [hh] at h1 h2; cases h1; cases h2; rfl
        | ub => simp only [hh] at h1 h2; cases h1; cases h2; rfl
  have key : ∀ oracle : Bytes → Res BigNum, c.hashToCurve sqrt oracle f₁ m = some r₁ →
      c.hashToCurve sqrt oracle f₂ m = some r₂ → r₁ = r₂ := by
    intro oracle h1 h2
    simp only [hashToCurve] at h1 h2
    cases ho : oracle m with
    | ok x => simp only [ho] at h1 h2; exact loop _ _ _ _ h1 h2
    | err e => simp only [ho] at h1 h2; cases h1; cases h2; rfl
    | crash => simp only [ho] at h1 h2; cases h1; cases h2; rfl
    | ub => simp only [ho] at h1 h2; cases h1; cases h2; rfl
  exact ⟨key _, key _, key _⟩

/-- For fields of up to 4096 bits the hash, once it returns, returns a point: no error,
no abort. -/
theorem C27_hash_never_fails {c : Curve} {p : Nat} (h : c.Proper p)
    (hbits : BN.bitLength c.p ≤ 4096)
    {sqrt : BigNum → BigNum → Res BigNum} (hs : SqrtOk sqrt p) (H : Hashes) (fuel : Nat)
    (m : Bytes) (r : Res RawPoint)
    (hr : c.hashSha256 H sqrt fuel m = some r ∨ c.hashSha384 H sqrt fuel m = some r ∨
      c.hashSha512 H sqrt fuel m = some r) : r.isOk := by
  have hp0 : 0 < c.p := by rw [h.hp]; exact_mod_cast h.prime.pos
  have loop : ∀ (oracle : Bytes → Res BigNum), (∀ s, ∃ v, oracle s = .ok v ∧ 0 ≤ v) →
      ∀ (fuel : Nat) (x : BigNum), 0 ≤ x → c.hashLoop sqrt oracle fuel x = some r → r.isOk := by
    intro oracle ho fuel
    induction fuel with
    | zero => intro x _ hx; cases hx
    | succ n ih =>
      intro x hx0 hx
      rcases h.hashInternal_spec hs x with ⟨y, hy, -⟩ | ⟨he, -⟩
      · simp only [hashLoop, hy, Option.some.injEq] at hx
        exact ⟨_, hx.symm⟩
      · obtain ⟨v, hv, hv0⟩ := ho (BN.natToBytes x.toNat)
        simp only [hashLoop, he, BN.toBytes_of_nonneg hx0, Res.ok_bind, hv] at hx
        exact ih v hv0 hx
  have key : ∀ (h' : Bytes → Bytes) (len : Nat), 0 < len → len ≤ 512 →
      c.hashToCurve sqrt (fun s => Ctx.randomOracle h' len s c.p) fuel m = some r → r.isOk := by
    intro h' len hl hl2 hh
    have hit : Ctx.iterCount len c.p * len < 130048 := by
      have : Ctx.iterCount len c.p * len ≤ BN.bitLength c.p + len + len - 1 :=
        Nat.div_mul_le_self _ _
      omega
    have ho : ∀ s, ∃ v, Ctx.randomOracle h' len s c.p = .ok v ∧ 0 ≤ v := by
      intro s
      obtain ⟨v, hv, h0, -⟩ := (C30_oracle_range h' len hl s c.p).1 hp0 hit
      exact ⟨v, hv, h0⟩
    obtain ⟨v, hv, hv0⟩ := ho m
    simp only [hashToCurve, hv] at hh
    exact loop _ ho _ _ hv0 hh
  rcases hr with hr | hr | hr
  · exact key _ 256 (by norm_num) (by norm_num) hr
  · exact key _ 384 (by norm_num) (by norm_num) hr
  · exact key _ 512 (by norm_num) (by norm_num) hr

/-- A square root by search over a list of candidates (used for examples). -/
def searchSqrt (order : List Nat → List Nat) (a m : BigNum) : Res BigNum :=
  match (order (List.range m.toNat)).find? (fun z : Nat => decide (((z : Int) * z - a) % m = 0)) with
  | some z => .ok z
  | none => .crash

theorem searchSqrt_ok (order : List Nat → List Nat) (horder : ∀ l x, x ∈ order l ↔ x ∈ l)
    {p : Nat} (hp : 0 < p) : SqrtOk (searchSqrt order) p := by
  intro a z hz
  have hp0 : (0 : Int) < p := by exact_mod_cast hp
  have hr0 := Int.emod_nonneg z (ne_of_gt hp0)
  have hr1 := Int.emod_lt_of_pos z hp0
  simp only [searchSqrt, Int.toNat_natCast]
  cases hf : (order (List.range p)).find?
      (fun z : Nat => decide (((z : Int) * z - a) % (p : Int) = 0)) with
  | none =>
    have := List.find?_eq_none.1 hf (z % (p : Int)).toNat
      ((horder _ _).2 (by rw [List.mem_range]; omega))
    simp only [decide_eq_true_eq, Int.toNat_of_nonneg hr0] at this
    exfalso
    apply this
    rw [Int.sub_emod, Int.mul_emod, Int.emod_emod, ← Int.mul_emod, ← Int.sub_emod]
    exact hz
  | some w =>
    have h1 := List.find?_some hf
    have h2 := (horder _ _).1 (List.mem_of_find?_eq_some hf)
    rw [List.mem_range] at h2
    exact ⟨w, rfl, by omega, by exact_mod_cast h2, by simpa using h1⟩

/-- A small curve of prime order: y^2 = x^3 + 3 modulo 7, 13 points. -/
def tiny : Curve := { p := 7, a := 0, b := 3, order := 13, fieldLen := 1 }

theorem tiny_proper : tiny.Proper 7 := ⟨rfl, by norm_num, by norm_num, by norm_num [tiny]⟩

/-- Hashes for the examples: one constant block. -/
def constHashes (n : Nat) : Hashes :=
  { sha256 := fun _ => BN.natToBytes (n * 2 ^ 253), sha384 := id, sha512 := id,
    hmacSha512 := fun k _ => k }

-- the hypotheses of C27 are met, with two square roots that return different roots, on a
-- hash that does return a point
example : tiny.Proper 7 ∧ SqrtOk (searchSqrt id) 7 ∧ SqrtOk (searchSqrt List.reverse) 7 ∧
    searchSqrt id 4 7 ≠ searchSqrt List.reverse 4 7 ∧
    tiny.hashToCurve (searchSqrt id) (fun s => .ok (if s = [] then 0 else 5)) 3 [1] =
      some (.ok (.aff 5 4)) ∧
    tiny.hashToCurve (searchSqrt List.reverse) (fun s => .ok (if s = [] then 5 else 0)) 3 [1] =
      some (.ok (.aff 5 4)) :=
  ⟨tiny_proper, searchSqrt_ok id (fun _ _ => Iff.rfl) (by norm_num),
    searchSqrt_ok List.reverse (fun _ _ => List.mem_reverse) (by norm_num), by decide, by decide,
    by decide⟩

/-! ### C28 -/

/-- The property as one would expect it. -/
def C28Statement : Prop :=
  ∀ (c : Curve) (p : Nat), c.Proper p → ∀ (sqrt : BigNum → BigNum → Res BigNum), SqrtOk sqrt p →
    ∀ (m : BigNum) (k : Nat) (P : RawPoint), 0 ≤ m →
      c.getPointByPaddingX sqrt m k = .ok P → recoverXFromPaddedPoint P k = .ok m

/-- The property is false: when `(m+1) * 2^k - 1` is the field prime itself, the last
candidate x-coordinate wraps around to 0. -/
theorem C28_boundary_fails : ¬ C28Statement := by
  intro h
  have := h { p := 23, a := 1, b := 3, order := 1, fieldLen := 1 } 23
    ⟨rfl, by norm_num, by norm_num, by norm_num⟩ (searchSqrt id)
    (searchSqrt_ok id (fun _ _ => Iff.rfl) (by norm_num)) 11 1 (.aff 0 16) (by norm_num) (by decide)
  exact absurd this (by decide)

theorem padLoop_spec {c : Curve} {p : Nat} (h : c.Proper p)
    {sqrt : BigNum → BigNum → Res BigNum} (hs : SqrtOk sqrt p) (xp : BigNum) :
    ∀ (n i : Nat) (P : RawPoint), c.padLoop sqrt xp n i = .ok P →
      ∃ j y, i ≤ j ∧ j < i + n ∧ P = .aff ((xp + j) % p) y ∧
        c.onCurve ((xp + j) % p) y = true := by
  intro n
  induction n with
  | zero => intro i P hP; cases hP
  | succ n ih =>
    intro i P hP
    rcases h.hashInternal_spec hs (xp + i) with ⟨y, hy, hon, -⟩ | ⟨he, -⟩
    · simp only [padLoop, hy, Res.ok.injEq] at hP
      exact ⟨i, y, le_refl _, by omega, hP.symm, hon⟩
    · simp only [padLoop, he] at hP
      obtain ⟨j, y, h1, h2, h3⟩ := ih _ _ hP
      exact ⟨j, y, by omega, by omega, h3⟩

/-- What holds: for every non-negative message and padding size other than the one
with `(m+1) * 2^k - 1 = p`, success gives a point of the curve from which the message
is recovered.  Missing from the full statement: that one message. -/
theorem C28_padding_round_trip_partial {c : Curve} {p : Nat} (h : c.Proper p)
    {sqrt : BigNum → BigNum → Res BigNum} (hs : SqrtOk sqrt p) (m : BigNum) (k : Nat)
    (P : RawPoint) (hm : 0 ≤ m) (hne : (m + 1) * 2 ^ k - 1 ≠ c.p)
    (hP : c.getPointByPaddingX sqrt m k = .ok P) :
    recoverXFromPaddedPoint P k = .ok m ∧
      ∃ x y, P = .aff x y ∧ IsPoint c.p c.a c.b x y := by
  have hk0 : ¬ ((k : Int) < 0) := by omega
  simp only [getPointByPaddingX, BN.lshift, if_neg hk0, Res.ok_bind, Int.toNat_natCast] at hP
  obtain ⟨mask, hmask, hP⟩ := Res.bind_eq_ok.1 hP
  split at hP
  · cases hP
  rename_i hle
  obtain ⟨j, y, hj1, hj2, hPj, hon⟩ := padLoop_spec h hs _ _ _ _ hP
  have hjk : j < 2 ^ k := by
    have : padLimit k ≤ 2 ^ k := by
      simp only [padLimit]; split
      · exact le_refl _
      · exact Nat.sub_le _ _
    have : 0 < 2 ^ k := Nat.two_pow_pos k
    omega
  have hjk' : (j : Int) < 2 ^ k := by exact_mod_cast hjk
  have hlt : m * 2 ^ k + j < p := by
    rw [← h.hp]
    simp only [padMask] at hmask
    have e : (m + 1) * 2 ^ k = m * 2 ^ k + 2 ^ k := by ring
    rw [e] at hne
    split at hmask
    · cases hmask; omega
    · split at hmask
      · cases hmask; omega
      · cases hmask
  have hpos : (0 : Int) < 2 ^ k := by positivity
  have hx0 : 0 ≤ m * 2 ^ k + j := by positivity
  rw [Int.emod_eq_of_lt hx0 hlt] at hPj hon
  subst hPj
  refine ⟨?_, _, _, rfl, (isPoint_iff c _ _).1 hon⟩
  simp only [recoverXFromPaddedPoint, BN.rshift, if_neg hk0, Int.toNat_natCast]
  rw [Int.tdiv_eq_ediv_of_nonneg hx0, add_comm, Int.add_mul_ediv_right _ _ (ne_of_gt hpos),
    Int.ediv_eq_zero_of_lt (by omega) hjk', zero_add]

-- the partial theorem applies to a message that is padded successfully
example : tiny.getPointByPaddingX (searchSqrt id) 2 1 = .ok (.aff 5 4) ∧
    ((2 : Int) + 1) * 2 ^ 1 - 1 ≠ tiny.p ∧ recoverXFromPaddedPoint (.aff 5 4) 1 = .ok 2 := by
  decide

/-- **C28, refusals**.  A message that does not fit with its padding is refused with
INVALID_ARGUMENT, and so is the point at infinity when a message is to be recovered. -/
theorem C28_refusals (c : Curve) (sqrt : BigNum → BigNum → Res BigNum) (m : BigNum) (k : Nat)
    (hk : k ≤ 53) (hbig : c.p < m * 2 ^ k + (2 ^ k - 1)) :
    c.getPointByPaddingX sqrt m k = .err .invalidArgument ∧
    recoverXFromPaddedPoint .inf k = .err .invalidArgument := by
  have hk0 : ¬ ((k : Int) < 0) := by omega
  refine ⟨?_, rfl⟩
  simp only [getPointByPaddingX, BN.lshift, if_neg hk0, Res.ok_bind, Int.toNat_natCast, padMask,
    if_pos hk]
  rw [if_pos hbig]

example : tiny.p < 4 * 2 ^ 1 + (2 ^ 1 - 1) := by decide

/-- Square-and-multiply, to evaluate the Euler criterion on the numbers of P-256. -/
def powMod (m : Nat) : Nat → Nat → Nat → Nat
  | 0, _, _ => 1 % m
  | fuel + 1, a, e =>
    if e = 0 then 1 % m
    else
      let r := powMod m fuel (a * a % m) (e / 2)
      if e % 2 = 1 then a * r % m else r

theorem powMod_eq (m : Nat) : ∀ fuel a e, e < 2 ^ fuel → powMod m fuel a e = a ^ e % m := by
  intro fuel
  induction fuel with
  | zero => intro a e he; have : e = 0 := by omega
            subst this; rfl
  | succ n ih =>
    intro a e he
    by_cases h0 : e = 0
    · subst h0; simp [powMod]
    · have hlt : e / 2 < 2 ^ n := by rw [pow_succ] at he; omega
      simp only [powMod, h0, if_false, ih _ _ hlt]
      have hsq : (a * a % m) ^ (e / 2) % m = a ^ (2 * (e / 2)) % m := by
        rw [← Nat.pow_mod, pow_mul, pow_two]
      split
      · rename_i h1
        rw [hsq]
        conv_rhs => rw [show e = 2 * (e / 2) + 1 by omega, pow_succ, mul_comm]
        rw [Nat.mul_mod, Nat.mod_mod, ← Nat.mul_mod]
      · rw [hsq, show 2 * (e / 2) = e by omega]

/-- NIST P-256 (`NID_X9_62_prime256v1`, the curve of the protocol programs). -/
def p256 : Curve where
  p := 115792089210356248762697446949407573530086143415290314195533631308867097853951
  a := 115792089210356248762697446949407573530086143415290314195533631308867097853948
  b := 41058363725152142129326129780047268409114441015993725554835256314039467401291
  order := 115792089210356248762697446949407573529996955224135760342422259061068512044369
  fieldLen := 32

theorem modExp_of_powMod (fuel a e m r : Nat) (he : e < 2 ^ fuel) (hm : m ≠ 0)
    (h : powMod m fuel a e = r) : BN.modExp a e m = .ok (r : Int) := by
  rw [powMod_eq m fuel a e he] at h
  simp only [BN.modExp]
  rw [if_neg (by omega), if_neg (by omega), Int.toNat_natCast, ← h]
  push_cast
  rfl

theorem p256_isSquare_b : p256.isSquare p256.b = .ok true := by
  have half : BN.div (p256.p - 1) 2 = .ok
      57896044605178124381348723474703786765043071707645157097766815654433548926975 := by decide
  have hpow : BN.modExp p256.b
      57896044605178124381348723474703786765043071707645157097766815654433548926975 p256.p
      = .ok 1 :=
    modExp_of_powMod 256
      41058363725152142129326129780047268409114441015993725554835256314039467401291
      57896044605178124381348723474703786765043071707645157097766815654433548926975
      115792089210356248762697446949407573530086143415290314195533631308867097853951 1
      (by norm_num) (by norm_num) (by decide +kernel)
  simp only [isSquare, half, Res.ok_bind, hpow]
  rfl

/-- The failing case with one bit of padding, for any odd p and any nonzero square b. -/
theorem message_lost (c : Curve) (sqrt : BigNum → BigNum → Res BigNum) (z : BigNum)
    (hp : 1 < c.p) (hpodd : c.p % 2 = 1) (hb0 : 0 < c.b) (hb1 : c.b < c.p)
    (hsq : c.isSquare c.b = .ok true)
    (hsqrt : sqrt c.b c.p = .ok z) (hz0 : 0 ≤ z) (hz1 : z < c.p)
    (hz : (z * z - c.b) % c.p = 0) :
    ∃ P, c.getPointByPaddingX sqrt ((c.p - 1) / 2) 1 = .ok P ∧
      recoverXFromPaddedPoint P 1 = .ok 0 := by
  have hp0 : c.p ≠ 0 := by omega
  have hx : ((c.p - 1) / 2) * 2 ^ 1 + ((1 : Nat) : Int) = c.p := by omega
  have hzne : z ≠ 0 := by
    rintro rfl
    have := Int.dvd_of_emod_eq_zero hz
    rw [show (0 : Int) * 0 - c.b = -c.b by ring, Int.dvd_neg] at this
    have := Int.le_of_dvd hb0 this
    omega
  have hmod : BN.mod (((c.p - 1) / 2) * 2 ^ 1 + (1 : Nat)) c.p = .ok 0 := by
    rw [hx]; simp [BN.mod, hp0]
  have hy2 : c.computeYSquare 0 = .ok c.b := by
    simp only [computeYSquare, BN.mod, if_neg hp0, BN.exp]
    rw [show ((0 : Int) ^ (Int.natAbs 3) + c.a * 0 + c.b) = c.b by simp,
      Int.emod_eq_of_lt (by omega) hb1]
  have onc : ∀ y : Int, 0 ≤ y → y < c.p → (y * y - c.b) % c.p = 0 → c.onCurve 0 y = true := by
    intro y h0 h1 h2
    rw [onCurve_iff]
    refine ⟨le_refl _, by omega, h0, h1, ?_⟩
    rw [show (0 : Int) * 0 * 0 + c.a * 0 + c.b = c.b by ring]
    exact h2
  have create : ∀ y : Int, c.onCurve 0 y = true → c.createECPointXY 0 y = .ok (.aff 0 y) := by
    intro y hy
    have hv : c.isValid (.aff 0 y) = true := (c.isValid_iff _).2 ⟨0, y, rfl, hy⟩
    simp [createECPointXY, pointOfCoordinates, hy, hv]
  have hint : ∃ y, c.hashInternal sqrt (((c.p - 1) / 2) * 2 ^ 1 + (1 : Nat)) = .ok (.aff 0 y) := by
    by_cases hbit : BN.isBitSet z 0 = true
    · have hneg : BN.modNegate z c.p = .ok (c.p - z) := by
        simp only [BN.modNegate, BN.mod, if_neg hzne, if_neg hp0, Int.emod_eq_of_lt hz0 hz1]
        rfl
      have hon : c.onCurve 0 (c.p - z) = true := by
        apply onc _ (by omega) (by omega)
        rw [show (c.p - z) * (c.p - z) - c.b
          = (z * z - c.b) + c.p * (c.p - 2 * z) by ring, Int.add_mul_emod_self_left, hz]
      refine ⟨c.p - z, ?_⟩
      simp only [hashInternal, hmod, Res.ok_bind, hy2, hsq, if_true, hsqrt, hbit,
        hneg, create _ hon]
    · refine ⟨z, ?_⟩
      have hon : c.onCurve 0 z = true := onc z hz0 hz1 hz
      simp only [hashInternal, hmod, Res.ok_bind, hy2, hsq, if_true, hsqrt,
        if_neg hbit, create _ hon]
  obtain ⟨y, hy⟩ := hint
  refine ⟨.aff 0 y, ?_, rfl⟩
  have hshift : ∀ a : BigNum, BN.lshift a ((1 : Nat) : Int) = .ok (a * 2 ^ 1) := fun _ => rfl
  have hmask : padMask 1 = .ok 1 := by decide
  have hle : ¬ (((c.p - 1) / 2) * 2 ^ 1 + 1 > c.p) := by omega
  simp only [getPointByPaddingX, hshift, Res.ok_bind, hmask, if_neg hle]
  rw [show padLimit 1 - 1 = 0 + 1 from rfl]
  simp only [padLoop, hy]

/-- On P-256 the failing message is `(p-1)/2` with one bit of padding: whatever root of
b the library returns, padding succeeds and the message read back is 0.  (This runs the
model on the actual parameters; primality of p is not needed.) -/
theorem C28_p256_message_lost (sqrt : BigNum → BigNum → Res BigNum) (z : BigNum)
    (hsqrt : sqrt p256.b p256.p = .ok z) (hz0 : 0 ≤ z) (hz1 : z < p256.p)
    (hz : (z * z - p256.b) % p256.p = 0) :
    ∃ P, p256.getPointByPaddingX sqrt ((p256.p - 1) / 2) 1 = .ok P ∧
      recoverXFromPaddedPoint P 1 = .ok 0 :=
  message_lost p256 sqrt z (by decide) (by decide) (by decide) (by decide) p256_isSquare_b
    hsqrt hz0 hz1 hz

-- such a root exists
example : ((46263761741508638697010950048709651021688891777877937875096931459006746039284 : Int) *
    46263761741508638697010950048709651021688891777877937875096931459006746039284 - p256.b)
      % p256.p = 0 := by decide

/-! ### C29 -/

/-- Whatever the decoding library does, `CreateECPoint` on bytes or on coordinates never
returns anything but an affine point of the curve. -/
theorem C29_only_curve_points (c : Curve) (decode : Bytes → Option RawPoint) (bs : Bytes)
    (x y : BigNum) (P : RawPoint)
    (h : c.createECPoint decode bs = .ok P ∨ c.createECPointXY x y = .ok P) :
    ∃ x y, P = .aff x y ∧ IsPoint c.p c.a c.b x y := by
  have key : c.isValid P = true → ∃ x y, P = .aff x y ∧ IsPoint c.p c.a c.b x y := by
    intro hv
    obtain ⟨x, y, h1, h2⟩ := (c.isValid_iff P).1 hv
    exact ⟨x, y, h1, (isPoint_iff c x y).1 h2⟩
  rcases h with h | h
  · simp only [createECPoint] at h
    split at h
    · cases h
    · split at h
      · cases h
      · rename_i hv
        cases h
        exact key (by simpa using hv)
  · simp only [createECPointXY, pointOfCoordinates] at h
    obtain ⟨Q, hQ, h⟩ := Res.bind_eq_ok.1 h
    split at h
    · cases h
    · rename_i hv
      cases h
      exact key (by simpa using hv)

/-- `CreateECPoint` on coordinates: a point for coordinates of a point of the curve; for all
others the process aborts (the header promises INVALID_ARGUMENT). -/
theorem C29_coordinates (c : Curve) (x y : BigNum) :
    (IsPoint c.p c.a c.b x y → c.createECPointXY x y = .ok (.aff x y)) ∧
    (¬ IsPoint c.p c.a c.b x y → c.createECPointXY x y = .crash) := by
  rw [← isPoint_iff]
  constructor
  · intro h
    simp [createECPointXY, pointOfCoordinates, h, isValid, isOnCurve, isAtInfinity]
  · intro h
    simp [createECPointXY, pointOfCoordinates, h]

/-- `CreateECPoint` on bytes never aborts: it returns a point or InvalidArgument. -/
theorem C29_bytes_total (c : Curve) (decode : Bytes → Option RawPoint) (bs : Bytes) :
    (∃ P, c.createECPoint decode bs = .ok P) ∨
      c.createECPoint decode bs = .err .invalidArgument := by
  simp only [createECPoint]
  split
  · exact Or.inr rfl
  · split
    · exact Or.inr rfl
    · exact Or.inl ⟨_, rfl⟩

/-- The point at infinity is refused whatever its encoding. -/
theorem C29_identity_refused (c : Curve) (decode : Bytes → Option RawPoint) (bs : Bytes)
    (h : decode bs = some .inf) : c.createECPoint decode bs = .err .invalidArgument := by
  simp [createECPoint, h, isValid, isAtInfinity]

/-- With SEC1 encodings: every point of the curve encodes, compressed and uncompressed,
and decoding returns it; the identity does not encode. -/
theorem C29_encode_decode {c : Curve} {p : Nat} (h : c.Proper p) :
    (∀ x y, IsPoint c.p c.a c.b x y →
      (∃ bs, c.point2oct (.aff x y) = some bs ∧
        c.createECPoint c.oct2point bs = .ok (.aff x y) ∧ bs.length = c.fieldLen + 1) ∧
      (∃ bs, c.point2octUncompressed (.aff x y) = some bs ∧
        c.createECPoint c.oct2point bs = .ok (.aff x y))) ∧
    c.point2oct .inf = none := by
  refine ⟨?_, rfl⟩
  intro x y hxy
  have hon := (isPoint_iff c x y).2 hxy
  have hv : c.isValid (.aff x y) = true := (c.isValid_iff _).2 ⟨x, y, rfl, hon⟩
  refine ⟨?_, ?_⟩
  · obtain ⟨bs, h1, h2⟩ := h.oct2point_point2oct hon
    refine ⟨bs, h1, by simp [createECPoint, h2, hv], ?_⟩
    simp only [point2oct, Option.some.injEq] at h1
    rw [← h1, List.length_cons, padTo_length]
    apply BN.natToBytes_length_le
    have := h.len
    have := h.hp
    obtain ⟨h0, h1, -⟩ := hxy
    omega
  · obtain ⟨bs, h1, h2⟩ := h.oct2point_uncompressed hon
    exact ⟨bs, h1, by simp [createECPoint, h2, hv]⟩

-- a point of the small curve, its encoding, and refused strings
example : IsPoint tiny.p tiny.a tiny.b 5 4 ∧ tiny.point2oct (.aff 5 4) = some [2, 5] ∧
    tiny.createECPoint tiny.oct2point [2, 5] = .ok (.aff 5 4) ∧
    tiny.createECPoint tiny.oct2point [2, 0] = .err .invalidArgument ∧
    tiny.createECPoint tiny.oct2point [0] = .err .invalidArgument ∧
    tiny.createECPoint tiny.oct2point [4, 5, 5] = .err .invalidArgument :=
  ⟨by unfold IsPoint; decide, by decide, by decide, by decide, by decide, by decide⟩

/-! ### The group interface is met by an actual curve -/

instance : Fact (Nat.Prime 7) := ⟨by norm_num⟩

theorem tiny_nonsingular (x y : ZMod 7) :
    (tiny.W 7).Nonsingular x y ↔ y ^ 2 = x ^ 3 + 3 := by
  have hΔ : (tiny.W 7).Δ ≠ 0 := by
    simp only [WeierstrassCurve.Δ, WeierstrassCurve.b₂, WeierstrassCurve.b₄,
        WeierstrassCurve.b₆, WeierstrassCurve.b₈, tiny]
    decide
  rw [← (tiny.W 7).equation_iff_nonsingular_of_Δ_ne_zero hΔ,
    WeierstrassCurve.Affine.equation_iff]
  simp only [tiny]
  constructor
  · intro h; push_cast at h; linear_combination h
  · intro h; push_cast; linear_combination h

/-- The small curve has 13 points (counted by the kernel). -/
theorem tiny_card : Nat.card (tiny.W 7).Point = 13 := by
  rw [Nat.card_congr (WeierstrassCurve.Affine.nonsingularPointEquiv (tiny.W 7))]
  have e : {xy : ZMod 7 × ZMod 7 // (tiny.W 7).Nonsingular xy.1 xy.2} ≃
      {xy : ZMod 7 × ZMod 7 // xy.2 ^ 2 = xy.1 ^ 3 + 3} :=
    Equiv.subtypeEquivRight fun xy => tiny_nonsingular xy.1 xy.2
  rw [show Nat.card (WithZero {xy : ZMod 7 × ZMod 7 // (tiny.W 7).Nonsingular xy.1 xy.2})
    = Nat.card (Option {xy : ZMod 7 × ZMod 7 // xy.2 ^ 2 = xy.1 ^ 3 + 3}) from
    Nat.card_congr (Equiv.optionCongr e)]
  rw [Nat.card_eq_fintype_card]
  decide

/-- A generator. -/
def tinyGen : (tiny.W 7).Point := .some 5 4 ((tiny_nonsingular 5 4).2 (by decide))

/-- Everything that C18-C26 (and the protocol theorems) assume of a curve holds of a
Weierstrass curve of prime order with SEC1 encoding, for any hash functions: here for
the small curve. -/
theorem tiny_lawful (H : Hashes) (sqrt : BigNum → BigNum → Res BigNum) (fuel : Nat)
    (sswu : Bytes → Bytes → Res (tiny.W 7).Point) :
    (tiny.toEcGroup 7 tinyGen H sqrt fuel sswu).Lawful :=
  toEcGroup_lawful tiny_proper tinyGen (WeierstrassCurve.Affine.Point.some_ne_zero _)
    (by norm_num [tiny]) tiny_card H sqrt fuel sswu

end Curve
end PJC
