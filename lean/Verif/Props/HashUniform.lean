import Verif.Lemmas.ManyChains
/-
C138: when the hash function is a random function, hashing different strings to a curve is close to
choosing points independently and uniformly.

Specification.  `hashPoints c p` is the set of the points of the curve, not on the x-axis, with an even
y-coordinate, so one of each pair of opposite points.  `E.card / N ^ n` is the probability that `n`
independent uniform points of the set are in `E`.
-/
namespace PJC.HashUniform
open PJC PJC.Prob PJC.Oracle PJC.Curve PJC.Loops PJC.Uniform Finset

/-- The points of the curve with an even y-coordinate other than 0. -/
def hashPoints (c : Curve) (p : Nat) : Finset (Nat × Nat) :=
  (range p ×ˢ range p).filter fun xy => c.onCurve xy.1 xy.2 = true ∧ xy.2 % 2 = 0 ∧ xy.2 ≠ 0

/-- What the loop returns, in terms of the string at which it ends. -/
theorem hashToCurve_term {Y : Type} {c : Curve} {p : Nat} (h : c.Proper p)
    {sqrt : BigNum → BigNum → Res BigNum} (hs : SqrtOk sqrt p) {oracle : Bytes → Res BigNum}
    {o : Bytes → Y} {V : Y → Nat} (ho : ∀ s, oracle s = .ok (V (o s) : Int)) :
    ∀ (k : Nat) (m : Bytes), c.hashToCurve sqrt oracle k m =
      (term o (fun y => nextX c sqrt (V y)) k m).map fun t => c.hashInternal sqrt (V (o t))
  | 0, m => by simp only [hashToCurve, ho, hashLoop, term, Option.map_none]
  | k + 1, m => by
    simp only [hashToCurve, ho, hashLoop, term]
    rcases h.hashInternal_spec hs (V (o m) : Int) with ⟨y, hy, -⟩ | ⟨he, -⟩
    · have hnx : nextX c sqrt (V (o m)) = none := by
        unfold nextX
        rw [if_pos ⟨_, hy⟩]
      rw [hnx, hy]
      simp only [Option.map_some, hy]
    · have hnx : nextX c sqrt (V (o m)) = some (BN.natToBytes (V (o m))) := by
        unfold nextX
        rw [if_neg]
        rintro ⟨P, hP⟩
        rw [he] at hP
        cases hP
      rw [hnx, he]
      simp only
      have ih := hashToCurve_term h hs ho k (BN.natToBytes (V (o m)))
      rw [BN.toBytes_of_nonneg (by positivity), Res.ok_bind, Int.toNat_natCast, ← ih]
      simp only [hashToCurve, ho]

/-- Opposite points have y-coordinates of different parity. -/
theorem even_root {c : Curve} {p : Nat} (h : c.Proper p) {x y y' : Int} (h1 : c.onCurve x y = true)
    (h2 : c.onCurve x y' = true) (e1 : y % 2 = 0) (e2 : y' % 2 = 0) (n2 : y' ≠ 0) : y = y' := by
  have : Fact p.Prime := ⟨h.prime⟩
  have hodd : p % 2 = 1 := (h.prime.eq_two_or_odd).resolve_left h.odd
  rw [onCurve_iff, h.hp] at h1 h2
  obtain ⟨-, -, a1, a2, a3⟩ := h1
  obtain ⟨-, -, b1, b2, b3⟩ := h2
  have hd : (p : Int) ∣ (y - y') * (y + y') := by
    have := dvd_sub (Int.dvd_of_emod_eq_zero a3) (Int.dvd_of_emod_eq_zero b3)
    have e : y * y - (x * x * x + c.a * x + c.b) - (y' * y' - (x * x * x + c.a * x + c.b)) =
        (y - y') * (y + y') := by ring
    rwa [e] at this
  rcases (Nat.prime_iff_prime_int.1 h.prime).dvd_or_dvd hd with ⟨t, ht⟩ | ⟨t, ht⟩
  · have ht0 : t = 0 := by
      by_contra hne
      have : (1 : Int) ≤ |t| := Int.one_le_abs hne
      have h3 : |y - y'| = p * |t| := by rw [ht, abs_mul]; simp
      have h4 : |y - y'| < p := by rw [abs_lt]; omega
      nlinarith
    rw [ht0] at ht
    omega
  · have ht1 : t = 1 := by
      have h3 : 0 < y + y' := by omega
      have h4 : y + y' < 2 * p := by omega
      have h5 : (0 : Int) < p := by omega
      have : 0 < t := by by_contra hc; nlinarith
      have : t < 2 := by by_contra hc; nlinarith
      omega
    rw [ht1] at ht
    omega

section
variable {c : Curve} {p : Nat} (h : c.Proper p) {sqrt : BigNum → BigNum → Res BigNum} (hs : SqrtOk sqrt p)
include h hs

/-- A value is accepted with a point exactly if it is its x-coordinate. -/
theorem accepts_iff {v : Nat} (hv : v < p) (w : hashPoints c p) :
    c.hashInternal sqrt (v : Int) = .ok (.aff w.1.1 w.1.2) ↔ v = w.1.1 := by
  obtain ⟨⟨x, y⟩, hw⟩ := w
  obtain ⟨hr, hon, he, hne⟩ := mem_filter.1 hw
  obtain ⟨hx, hy⟩ := mem_product.1 hr
  rw [mem_range] at hx hy
  simp only at hx hy hon he hne ⊢
  have hvp : (v : Int) % p = v := Int.emod_eq_of_lt (by positivity) (by exact_mod_cast hv)
  constructor
  · intro hi
    rcases h.hashInternal_spec hs (v : Int) with ⟨y', hy', -⟩ | ⟨he', -⟩
    · rw [hy', hvp] at hi
      have := (RawPoint.aff.inj (Res.ok.inj hi)).1
      exact_mod_cast this
    · rw [he'] at hi
      cases hi
  · rintro rfl
    rcases h.hashInternal_spec hs (v : Int) with ⟨y', hy', hon', he', hne'⟩ | ⟨-, hall⟩
    · rw [hvp] at hy' hon'
      rw [hy', even_root h hon' hon he' (by omega) (by omega)]
    · rw [hvp] at hall
      have := hall y hon
      omega

theorem accepted {v : Nat} (hv : v < p) {P : RawPoint} (hi : c.hashInternal sqrt (v : Int) = .ok P) :
    ∃ w : hashPoints c p, P = .aff w.1.1 w.1.2 := by
  have hvp : (v : Int) % p = v := Int.emod_eq_of_lt (by positivity) (by exact_mod_cast hv)
  rcases h.hashInternal_spec hs (v : Int) with ⟨y', hy', hon', he', hne'⟩ | ⟨he', -⟩
  · rw [hvp] at hy' hon'
    have hb := (onCurve_iff c v y').1 hon'
    rw [h.hp] at hb
    obtain ⟨-, -, b1, b2, -⟩ := hb
    obtain ⟨y, rfl⟩ := Int.eq_ofNat_of_zero_le b1
    refine ⟨⟨(v, y), mem_filter.2 ⟨mem_product.2 ⟨mem_range.2 hv, mem_range.2 (by exact_mod_cast b2)⟩,
      hon', by omega, by omega⟩⟩, ?_⟩
    rw [hy'] at hi
    exact (Res.ok.inj hi).symm
  · rw [he'] at hi
    cases hi

open scoped Classical in
/-- **C138**, `GetPointByHashingToCurveSha256/384/512` (`L` is 32, 48 or 64).  Any set of results of
hashing `n` different strings to the curve within `k` rounds has nearly the probability of `n` independent
uniform points with an even y-coordinate. -/
theorem C138_close (hbits : BN.bitLength c.p ≤ 4096) (L : Nat) (hL : L = 32 ∨ L = 48 ∨ L = 64)
    (B : Bytes → Bytes) (B' : Bytes → Blocks (Ctx.iterCount (8 * L) c.p) L) {n : Nat} (ms : Fin n → Bytes)
    (hms : Function.Injective ms) (D : Finset Bytes) (hm : ∀ i, ms i ∈ D)
    (hD : ∀ v < p, BN.natToBytes v ∈ D) (k : Nat) {ν : ℚ}
    (hν : ∀ i, prob (fun f : D → Blocks (Ctx.iterCount (8 * L) c.p) L =>
      c.hashToCurve sqrt (fun s => Ctx.randomOracle (blockHash B (graft B' D f)) (8 * L) s c.p) k (ms i) =
        none) ≤ ν) (E : Finset (Fin n → hashPoints c p)) :
    |prob (fun f : D → Blocks (Ctx.iterCount (8 * L) c.p) L => ∃ z ∈ E, ∀ i,
        c.hashToCurve sqrt (fun s => Ctx.randomOracle (blockHash B (graft B' D f)) (8 * L) s c.p) k (ms i) =
          some (.ok (.aff (z i).1.1 (z i).1.2))) - E.card / ((hashPoints c p).card : ℚ) ^ n| ≤
      ((1 + 1 / 2 ^ (8 * L)) / (1 - 1 / 2 ^ (8 * L))) ^ n - 1 + (n * ν + n ^ 2 * (4 * k ^ 2 * (2 / p))) := by
  have hp0 : 0 < p := h.prime.pos
  have hpq : (0 : ℚ) < p := by exact_mod_cast hp0
  rw [h.hp] at hbits
  revert B'
  rw [h.hp]
  intro B' hν
  have hL0 : 0 < L := by omega
  have he := bits_le hL0 p
  have hM2 : Ctx.iterCount (8 * L) p ≤ 255 ∧ Ctx.iterCount (8 * L) p * (8 * L) < 130048 := by
    unfold Ctx.iterCount
    rcases hL with rfl | rfl | rfl <;> omega
  have ho : ∀ (o : Bytes → BlocksFor L p) (s : Bytes),
      Ctx.randomOracle (blockHash B o) (8 * L) s p = .ok (out p (o s) : Int) := fun o s =>
    randomOracle_blocks B o s hp0 rfl hM2.1 hM2.2 (by omega)
  have hlt : ∀ y : BlocksFor L p, out p y < p := fun y => Nat.mod_lt _ hp0
  obtain ⟨d, hd⟩ : ∃ d : ℚ, d = 1 / 2 ^ (8 * L) := ⟨_, rfl⟩
  have hd0 : 0 ≤ d := by rw [hd]; positivity
  have hd1 : d < 1 := by
    rw [hd, ← one_div_pow]
    exact pow_lt_one₀ (by norm_num) (by norm_num) (by omega)
  have hout : ∀ z < p, (1 - d) / p ≤ prob (fun y : BlocksFor L p => out p y = z) ∧
      prob (fun y : BlocksFor L p => out p y = z) ≤ (1 + d) / p := by
    intro z hz
    rw [hd]
    have := prob_out hL0 hp0 hz
    convert this
  rw [← hd]
  have key := chains_close' (n := n) (fun y : BlocksFor L p => nextX c sqrt (out p y)) (D := D) (γ := 2 / p)
    (ν := ν) (by
      intro y z hz
      unfold nextX at hz
      split at hz
      · cases hz
      · cases hz
        exact hD _ (hlt y)) (by positivity) (by
      intro z
      have hmono : ∀ y : BlocksFor L p, nextX c sqrt (out p y) = some z → out p y = (BN.ofBytes z).toNat := by
        intro y hy
        unfold nextX at hy
        split at hy
        · cases hy
        · cases hy
          rw [BN.ofBytes_natToBytes, Int.toNat_natCast]
      by_cases hz : (BN.ofBytes z).toNat < p
      · refine (prob_mono hmono).trans ((hout _ hz).2.trans ?_)
        apply div_le_div_of_nonneg_right _ hpq.le
        linarith only [hd1]
      · refine le_trans (le_of_eq (Py.Prng.prob_false ?_)) (by positivity)
        intro y hy
        exact hz ((hmono y hy) ▸ hlt y)) B' k ms hm hms (by
      intro i
      refine le_trans (prob_mono fun f hf => ?_) (hν i)
      rw [hashToCurve_term h hs (ho _) k (ms i), hf]
      rfl) (fun (w : hashPoints c p) (y : BlocksFor L p) =>
        c.hashInternal sqrt (out p y : Int) = .ok (.aff w.1.1 w.1.2)) (by
      intro w y hy
      show nextX _ _ _ = none
      unfold nextX
      rw [if_pos ⟨_, hy⟩]) (by
      intro y hy
      have hy : nextX c sqrt (out p y) = none := hy
      unfold nextX at hy
      split at hy
      · next hP =>
        obtain ⟨P, hP⟩ := hP
        obtain ⟨w, rfl⟩ := accepted h hs (hlt y) hP
        exact ⟨w, hP⟩
      · cases hy) (by
      intro w w' y h1 h2
      rw [h1] at h2
      obtain ⟨e1, e2⟩ := RawPoint.aff.inj (Res.ok.inj h2)
      apply Subtype.ext
      exact Prod.ext (by exact_mod_cast e1) (by exact_mod_cast e2)) (l := 1 - d) (u := 1 + d) (p := p)
      (by linarith only [hd1]) (by linarith only [hd0]) hpq (by
      intro w
      have hw : w.1.1 < p := mem_range.1 (mem_product.1 (mem_filter.1 w.2).1).1
      have := hout _ hw
      have e : prob (fun y : BlocksFor L p => c.hashInternal sqrt (out p y : Int) = .ok (.aff w.1.1 w.1.2)) =
          prob fun y : BlocksFor L p => out p y = w.1.1 := by
        refine Eq.trans (by convert rfl) (Eq.trans (prob_congr fun y => accepts_iff h hs (hlt y) w) ?_)
        convert rfl
      rw [← e] at this
      convert this) E
  rw [Fintype.card_coe] at key
  refine le_trans (le_of_eq ?_) key
  congr 2
  refine Eq.trans ?_ (Eq.trans (prob_congr (S := fun f : D → BlocksFor L p => ∃ z ∈ E, ∀ i,
      c.hashToCurve sqrt (fun s => Ctx.randomOracle (blockHash B (graft B' D f)) (8 * L) s p) k (ms i) =
        some (.ok (.aff (z i).1.1 (z i).1.2))) (T := fun f : D → BlocksFor L p => ∃ z ∈ E, ∀ i, ∃ t,
      term (graft B' D f) (fun y => nextX c sqrt (out p y)) k (ms i) = some t ∧
        c.hashInternal sqrt (out p (graft B' D f t) : Int) = .ok (.aff (z i).1.1 (z i).1.2)) ?_) ?_)
  · convert rfl
  · intro f
    refine exists_congr fun z => and_congr_right fun _ => forall_congr' fun i => ?_
    rw [hashToCurve_term h hs (ho _) k (ms i)]
    simp only [Option.map_eq_some_iff]
  · convert rfl

end

/-! ### The named curves -/

theorem ratio_num {n : Nat} {d : ℚ} (hd0 : 0 ≤ d) (hd : 4 * n * d ≤ 1) (hd1 : 2 * d ≤ 1) :
    ((1 + d) / (1 - d)) ^ n - 1 ≤ 4 * n * d := by
  have h1 : (1 - 2 * d : ℚ) ≤ (1 - d) / (1 + d) := by
    rw [le_div_iff₀ (by linarith)]
    nlinarith
  have h2 : 1 - 2 * n * d ≤ ((1 - d) / (1 + d)) ^ n := by
    have b := one_add_mul_le_pow (a := -(2 * d)) (by linarith) n
    calc 1 - 2 * n * d = 1 + n * -(2 * d) := by ring
      _ ≤ (1 + -(2 * d)) ^ n := b
      _ ≤ ((1 - d) / (1 + d)) ^ n := pow_le_pow_left₀ (by linarith) (by linarith) n
  have e : ((1 + d) / (1 - d)) ^ n = 1 / ((1 - d) / (1 + d)) ^ n := by
    rw [← one_div_pow, one_div_div]
  have hx0 : 0 ≤ n * d := by positivity
  have h3 : 0 < 1 - 2 * n * d := by linarith
  rw [e, sub_le_iff_le_add]
  refine (one_div_le_one_div_of_le h3 h2).trans ?_
  rw [div_le_iff₀ h3]
  nlinarith

theorem named_bound {q n L : Nat} (hq : 2 ^ 200 ≤ q) (hL : 32 ≤ L) (hn : n ≤ 2 ^ 55) {x : ℚ}
    (hx : x ≤ ((1 + 1 / 2 ^ (8 * L)) / (1 - 1 / 2 ^ (8 * L))) ^ n - 1 +
      (n * (1 / 2 ^ 127) + n ^ 2 * (4 * ((128 : Nat) : ℚ) ^ 2 * (2 / q)))) : x ≤ n / 2 ^ 126 := by
  obtain ⟨d, hd⟩ : ∃ d : ℚ, d = 1 / 2 ^ (8 * L) := ⟨_, rfl⟩
  rw [← hd] at hx
  have hd0 : 0 ≤ d := by rw [hd]; positivity
  have hd2 : d ≤ 1 / 2 ^ 200 := by
    rw [hd]
    exact one_div_le_one_div_of_le (by positivity) (pow_le_pow_right₀ (by norm_num) (by omega))
  have hq2 : (1 : ℚ) / q ≤ 1 / 2 ^ 200 := one_div_le_one_div_of_le (by positivity) (by exact_mod_cast hq)
  have hn2 : (n : ℚ) ≤ 2 ^ 55 := by exact_mod_cast hn
  have hn0 : (0 : ℚ) ≤ n := by positivity
  have b1 : n * d ≤ n * (1 / 2 ^ 200) := mul_le_mul_of_nonneg_left hd2 hn0
  have b2 : (n : ℚ) * (1 / 2 ^ 200) ≤ 2 ^ 55 * (1 / 2 ^ 200) := mul_le_mul_of_nonneg_right hn2 (by positivity)
  have h1 : ((1 + d) / (1 - d)) ^ n - 1 ≤ 4 * n * d := by
    apply ratio_num hd0
    · have : (4 : ℚ) * (2 ^ 55 * (1 / 2 ^ 200)) ≤ 1 := by norm_num
      linarith
    · have : (2 : ℚ) * (1 / 2 ^ 200) ≤ 1 := by norm_num
      linarith
  have h2 : (n : ℚ) ^ 2 * (4 * ((128 : Nat) : ℚ) ^ 2 * (2 / q)) ≤ n * (2 ^ 55 * 131072 * (1 / 2 ^ 200)) := by
    have e : (n : ℚ) ^ 2 * (4 * ((128 : Nat) : ℚ) ^ 2 * (2 / q)) = n * (n * 131072 * (1 / q)) := by
      push_cast
      ring
    rw [e]
    apply mul_le_mul_of_nonneg_left _ hn0
    apply mul_le_mul (by linarith) hq2 (by positivity) (by positivity)
  have h3 : (n : ℚ) * (1 / 2 ^ 127 + 2 ^ 55 * 131072 * (1 / 2 ^ 200) + 4 * (1 / 2 ^ 200)) ≤ n * (1 / 2 ^ 126) := by
    apply mul_le_mul_of_nonneg_left _ hn0
    norm_num
  have h4 : (n : ℚ) / 2 ^ 126 = n * (1 / 2 ^ 126) := by ring
  rw [h4]
  linarith

open scoped Classical in
/-- **C138** for the curves P-224, P-256 and P-384: no test of what hashing `n` different strings to the
curve returns tells it from `n` independent uniform points with an advantage above `n / 2 ^ 126`. -/
theorem C138_named {c : Curve} {q : Nat} {gx gy : Int} (h : Named c q gx gy)
    {sqrt : BigNum → BigNum → Res BigNum} (hs : SqrtOk sqrt q) (B : Bytes → Bytes) (H : Hashes) {n : Nat}
    (hn : n ≤ 2 ^ 55) (ms : Fin n → Bytes) (hms : Function.Injective ms) (D : Finset Bytes)
    (hm : ∀ i, ms i ∈ D) (hD : ∀ v < q, BN.natToBytes v ∈ D)
    (B₁ : Bytes → Blocks (Ctx.iterCount 256 c.p) 32) (B₂ : Bytes → Blocks (Ctx.iterCount 384 c.p) 48)
    (B₃ : Bytes → Blocks (Ctx.iterCount 512 c.p) 64) (E : Finset (Fin n → hashPoints c q)) :
    |prob (fun f : D → Blocks (Ctx.iterCount 256 c.p) 32 => ∃ z ∈ E, ∀ i,
        c.hashSha256 { H with sha256 := blockHash B (graft B₁ D f) } sqrt 128 (ms i) =
          some (.ok (.aff (z i).1.1 (z i).1.2))) - E.card / ((hashPoints c q).card : ℚ) ^ n| ≤ n / 2 ^ 126 ∧
    |prob (fun f : D → Blocks (Ctx.iterCount 384 c.p) 48 => ∃ z ∈ E, ∀ i,
        c.hashSha384 { H with sha384 := blockHash B (graft B₂ D f) } sqrt 128 (ms i) =
          some (.ok (.aff (z i).1.1 (z i).1.2))) - E.card / ((hashPoints c q).card : ℚ) ^ n| ≤ n / 2 ^ 126 ∧
    |prob (fun f : D → Blocks (Ctx.iterCount 512 c.p) 64 => ∃ z ∈ E, ∀ i,
        c.hashSha512 { H with sha512 := blockHash B (graft B₃ D f) } sqrt 128 (ms i) =
          some (.ok (.aff (z i).1.1 (z i).1.2))) - E.card / ((hashPoints c q).card : ℚ) ^ n| ≤ n / 2 ^ 126 := by
  obtain ⟨hp, -, -, -, -⟩ := C111_prime_order h
  obtain ⟨-, -, n4, n5⟩ := named_num h
  have hpr := h.certified.proper
  have hbits : BN.bitLength c.p ≤ 4096 := by rw [hp]; exact n5
  have hν := fun i => C126_hash_named h hs B H (ms i) D (hm i) hD B₁ B₂ B₃
  refine ⟨?_, ?_, ?_⟩
  · exact named_bound n4 (L := 32) (by norm_num) hn
      (C138_close hpr hs hbits 32 (by simp) B B₁ ms hms D hm hD 128 (fun i => (hν i).1) E)
  · exact named_bound n4 (L := 48) (by norm_num) hn
      (C138_close hpr hs hbits 48 (by simp) B B₂ ms hms D hm hD 128 (fun i => (hν i).2.1) E)
  · exact named_bound n4 (L := 64) (by norm_num) hn
      (C138_close hpr hs hbits 64 (by simp) B B₃ ms hms D hm hD 128 (fun i => (hν i).2.2) E)

/-! ### How many points there are -/

section
variable {p : Nat} [Fact p.Prime]

theorem hashPoints_card {c : Curve} (h : c.Proper p) : (hashPoints c p).card =
    (univ.filter fun xy : ZMod p × ZMod p => xy.2 ^ 2 = xy.1 ^ 3 + c.a * xy.1 + c.b ∧ xy.2.val % 2 = 0 ∧
      xy.2 ≠ 0).card := by
  have : NeZero p := ⟨h.prime.ne_zero⟩
  have hon : ∀ x y : ZMod p, c.onCurve (x.val : Int) (y.val : Int) = true ↔ y ^ 2 = x ^ 3 + c.a * x + c.b := by
    intro x y
    rw [onCurve_iff, h.hp]
    have e : ((y.val : Int) * y.val - ((x.val : Int) * x.val * x.val + c.a * x.val + c.b)) % p = 0 ↔
        y ^ 2 = x ^ 3 + c.a * x + c.b := by
      rw [← Int.dvd_iff_emod_eq_zero, ← ZMod.intCast_zmod_eq_zero_iff_dvd]
      push_cast
      rw [ZMod.natCast_zmod_val, ZMod.natCast_zmod_val]
      constructor <;> intro he <;> linear_combination he
    rw [e]
    have h1 := ZMod.val_lt x
    have h2 := ZMod.val_lt y
    constructor
    · exact fun h => h.2.2.2.2
    · exact fun h => ⟨by positivity, by exact_mod_cast h1, by positivity, by exact_mod_cast h2, h⟩
  symm
  apply card_bij (fun xy _ => (xy.1.val, xy.2.val))
  · rintro ⟨x, y⟩ hxy
    obtain ⟨e, e2, e3⟩ := (mem_filter.1 hxy).2
    exact mem_filter.2 ⟨mem_product.2 ⟨mem_range.2 (ZMod.val_lt x), mem_range.2 (ZMod.val_lt y)⟩,
      (hon x y).2 e, e2, fun h => e3 ((ZMod.val_eq_zero y).1 h)⟩
  · rintro ⟨x, y⟩ - ⟨x', y'⟩ - e
    obtain ⟨e1, e2⟩ := Prod.mk.inj e
    exact Prod.ext (ZMod.val_injective p e1) (ZMod.val_injective p e2)
  · rintro ⟨x, y⟩ hxy
    obtain ⟨hr, e, e2, e3⟩ := mem_filter.1 hxy
    obtain ⟨hx, hy⟩ := mem_product.1 hr
    rw [mem_range] at hx hy
    simp only at hx hy e e2 e3
    have vx : (x : ZMod p).val = x := ZMod.val_natCast_of_lt hx
    have vy : (y : ZMod p).val = y := ZMod.val_natCast_of_lt hy
    refine ⟨((x : ZMod p), (y : ZMod p)), mem_filter.2 ⟨mem_univ _, ?_, ?_, ?_⟩, ?_⟩
    · rw [← hon, vx, vy]
      exact e
    · simp only [vy, e2]
    · intro h0
      apply e3
      have := (ZMod.val_eq_zero (y : ZMod p)).2 h0
      rwa [vy] at this
    · simp only [vx, vy]

/-- **C138**.  The set has one of each pair of opposite points that are not on the x-axis. -/
theorem C138_points {c : Curve} (h : c.Proper p) : numPoints p c.a c.b =
    2 * (hashPoints c p).card + (univ.filter fun x : ZMod p => x ^ 3 + c.a * x + c.b = 0).card + 1 := by
  classical
  have : NeZero p := ⟨h.prime.ne_zero⟩
  have hodd : p % 2 = 1 := (h.prime.eq_two_or_odd).resolve_left h.odd
  let S := univ.filter fun xy : ZMod p × ZMod p => xy.2 ^ 2 = xy.1 ^ 3 + c.a * xy.1 + c.b
  have hS : numPoints p c.a c.b = S.card + 1 := by
    unfold numPoints
    rw [Nat.card_eq_fintype_card, Fintype.card_subtype]
  have h0 : (S.filter fun xy => xy.2 = 0).card =
      (univ.filter fun x : ZMod p => x ^ 3 + c.a * x + c.b = 0).card := by
    apply card_bij (fun xy _ => xy.1)
    · rintro ⟨x, y⟩ hxy
      obtain ⟨hs, rfl⟩ := mem_filter.1 hxy
      have := (mem_filter.1 hs).2
      refine mem_filter.2 ⟨mem_univ _, ?_⟩
      simp only at this ⊢
      rw [← this]
      ring
    · rintro ⟨x, y⟩ hxy ⟨x', y'⟩ hxy' e
      have e1 := (mem_filter.1 hxy).2
      have e2 := (mem_filter.1 hxy').2
      simp only at e e1 e2
      rw [e, e1, e2]
    · intro x hx
      refine ⟨(x, 0), mem_filter.2 ⟨mem_filter.2 ⟨mem_univ _, ?_⟩, rfl⟩, rfl⟩
      have := (mem_filter.1 hx).2
      simp only
      rw [this]
      ring
  have h1 : (S.filter fun xy => xy.2 ≠ 0 ∧ xy.2.val % 2 = 0).card = (hashPoints c p).card := by
    rw [hashPoints_card h, filter_filter]
    congr 1
    ext xy
    simp only [mem_filter, mem_univ, true_and]
    tauto
  have hneg : ∀ y : ZMod p, y ≠ 0 → (-y).val = p - y.val := by
    intro y hy
    rw [ZMod.neg_val, if_neg hy]
  have h2 : (S.filter fun xy => xy.2 ≠ 0 ∧ ¬ xy.2.val % 2 = 0).card =
      (S.filter fun xy => xy.2 ≠ 0 ∧ xy.2.val % 2 = 0).card := by
    apply card_bij (fun xy _ => (xy.1, -xy.2))
    · rintro ⟨x, y⟩ hxy
      obtain ⟨hs, hy, ho⟩ := mem_filter.1 hxy
      have he := (mem_filter.1 hs).2
      simp only at hy ho he
      have hv := ZMod.val_lt y
      refine mem_filter.2 ⟨mem_filter.2 ⟨mem_univ _, ?_⟩, neg_ne_zero.2 hy, ?_⟩
      · simp only
        rw [← he]
        ring
      · simp only [hneg y hy]
        omega
    · rintro ⟨x, y⟩ - ⟨x', y'⟩ - e
      obtain ⟨e1, e2⟩ := Prod.mk.inj e
      simp only at e1 e2
      rw [e1, neg_injective e2]
    · rintro ⟨x, y⟩ hxy
      obtain ⟨hs, hy, ho⟩ := mem_filter.1 hxy
      have he := (mem_filter.1 hs).2
      simp only at hy ho he
      have hv := ZMod.val_lt y
      have hv0 : y.val ≠ 0 := fun h => hy ((ZMod.val_eq_zero y).1 h)
      refine ⟨(x, -y), mem_filter.2 ⟨mem_filter.2 ⟨mem_univ _, ?_⟩, neg_ne_zero.2 hy, ?_⟩, ?_⟩
      · simp only
        rw [← he]
        ring
      · simp only [hneg y hy]
        omega
      · simp only [neg_neg]
  have a1 := card_filter_add_card_filter_not (s := S) fun xy => xy.2 = 0
  have a2 := card_filter_add_card_filter_not (s := S.filter fun xy => ¬ xy.2 = 0) fun xy => xy.2.val % 2 = 0
  have f1 := filter_filter (fun xy : ZMod p × ZMod p => ¬ xy.2 = 0) (fun xy => xy.2.val % 2 = 0) S
  have f2 := filter_filter (fun xy : ZMod p × ZMod p => ¬ xy.2 = 0) (fun xy => ¬ xy.2.val % 2 = 0) S
  rw [f1, f2] at a2
  rw [hS]
  clear_value S
  simp only [ne_eq] at h1 h2
  omega

end

/-- **C138**.  On P-224, P-256 and P-384 the set has one of each pair of opposite points: half of the
points other than the point at infinity. -/
theorem C138_half {c : Curve} {q : Nat} {gx gy : Int} (h : Named c q gx gy) :
    2 * (hashPoints c q).card + 1 = c.order := by
  classical
  have hc := h.certified
  have hf : Fact q.Prime := ⟨hc.proper.prime⟩
  have hN := (numPoints_eq hc.proper hc.smooth).trans hc.card
  have h1 := C138_points hc.proper
  rw [hN] at h1
  have hodd : c.order % 2 = 1 := by cases h <;> decide +kernel
  have hle := roots_le (c.a : ZMod q) (c.b : ZMod q)
  obtain ⟨R, hR⟩ : ∃ R, R = univ.filter fun x : ZMod q => x ^ 3 + (c.a : ZMod q) * x + c.b = 0 := ⟨_, rfl⟩
  rw [← hR] at h1 hle
  have h2 : R.card ≠ 2 := by
    intro h2
    obtain ⟨u, v, huv, e⟩ := card_eq_two.1 h2
    have mem : ∀ x, x ∈ R ↔ x ^ 3 + (c.a : ZMod q) * x + c.b = 0 := by
      intro x
      rw [hR]
      simp
    have hu := (mem u).1 (by rw [e]; simp)
    have hv := (mem v).1 (by rw [e]; simp)
    have hA : (c.a : ZMod q) = -(u ^ 2 + u * v + v ^ 2) := by
      have : (u - v) * ((c.a : ZMod q) + (u ^ 2 + u * v + v ^ 2)) = 0 := by linear_combination hu - hv
      rcases mul_eq_zero.1 this with h | h
      · exact absurd (sub_eq_zero.1 h) huv
      · linear_combination h
    have hB : (c.b : ZMod q) = u * v * (u + v) := by
      rw [hA] at hu
      linear_combination hu
    have hw : -(u + v) ∈ R := by
      rw [mem, hA, hB]
      ring
    rw [e, mem_insert, mem_singleton] at hw
    apply hc.smooth
    rw [← ZMod.intCast_zmod_eq_zero_iff_dvd]
    push_cast
    have hz : (2 * u + v) * (u + 2 * v) = 0 := by
      rcases hw with h | h
      · rw [show 2 * u + v = 0 by linear_combination -h, zero_mul]
      · rw [show u + 2 * v = 0 by linear_combination -h, mul_zero]
    rw [hA, hB]
    linear_combination (-(u - v) ^ 2 * (2 * u + v) * (u + 2 * v)) * hz
  omega

/-! ### Cases that meet the hypotheses -/

open scoped Classical in
theorem two_strings {c : Curve} {q : Nat} {gx gy : Int} (h : Named c q gx gy)
    {sqrt : BigNum → BigNum → Res BigNum} (hs : SqrtOk sqrt q) (H : Hashes) (m m' : Bytes) (hne : m ≠ m')
    (E : Finset (Fin 2 → hashPoints c q)) : ∃ D : Finset Bytes,
    |prob (fun f : D → Blocks (Ctx.iterCount 256 c.p) 32 => ∃ z ∈ E, ∀ i,
        c.hashSha256 { H with sha256 := blockHash id (graft (fun _ _ _ => 0) D f) } sqrt 128
          (![m, m'] i) = some (.ok (.aff (z i).1.1 (z i).1.2))) - E.card / ((hashPoints c q).card : ℚ) ^ 2| ≤
      (2 : Nat) / 2 ^ 126 := by
  have hinj : Function.Injective ![m, m'] := by
    intro i j
    fin_cases i <;> fin_cases j <;> simp [hne, hne.symm]
  have hmem : ∀ i, ![m, m'] i ∈ insert m (insert m' ((range q).image BN.natToBytes)) := by
    intro i
    fin_cases i <;> simp
  exact ⟨insert m (insert m' ((range q).image BN.natToBytes)),
    (C138_named h hs id H (by norm_num) ![m, m'] hinj _ hmem
      (fun _ hv => mem_insert_of_mem (mem_insert_of_mem (mem_image_of_mem _ (mem_range.2 hv))))
      (fun _ _ _ => 0) (fun _ _ _ => 0) (fun _ _ _ => 0) E).1⟩

open scoped Classical in
/-- Two different strings hashed to P-256 with SHA-256, and any test of the two points. -/
theorem C138_reached (m m' : Bytes) (hne : m ≠ m') (E : Finset (Fin 2 → hashPoints p256 q256)) :
    ∃ D : Finset Bytes, |prob (fun f : D → Blocks (Ctx.iterCount 256 p256.p) 32 => ∃ z ∈ E, ∀ i,
        p256.hashSha256 { twoHashes with sha256 := blockHash id (graft (fun _ _ _ => 0) D f) } (powSqrt 256) 128
          (![m, m'] i) = some (.ok (.aff (z i).1.1 (z i).1.2))) -
      E.card / ((hashPoints p256 q256).card : ℚ) ^ 2| ≤ (2 : Nat) / 2 ^ 126 :=
  two_strings .p256 q256_sqrt twoHashes m m' hne E

end PJC.HashUniform
