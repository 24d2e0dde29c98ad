import Verif.Lemmas.Exp
/-
Properties C15 (two-modulus CRT), C16 (fixed-base exponentiation), C17
(simultaneous exponentiation), C67 (Montgomery numbers).
-/
namespace PJC.Props
open PJC

/-! ### C15 -/

/-- Specification: `x` is the CRT solution of `x ≡ a (m1)`, `x ≡ b (m2)`. -/
def IsCrtSolution (m1 m2 a b x : Int) : Prop :=
  0 ≤ x ∧ x < m1 * m2 ∧ x % m1 = a % m1 ∧ x % m2 = b % m2

/-- C15: for coprime moduli the constructor succeeds, `Compute` succeeds on all integers and
returns the unique solution of the two congruences in `[0, m1*m2)`. -/
theorem C15_crt (m1 m2 : Int) (h1 : 0 < m1) (h2 : 0 < m2) (hc : Int.gcd m1 m2 = 1) :
    ∃ crt, Crt.new m1 m2 = .ok crt ∧ ∀ a b : Int, ∃ x, Crt.compute crt a b = .ok x ∧
      IsCrtSolution m1 m2 a b x ∧ ∀ y, IsCrtSolution m1 m2 a b y → y = x := by
  have hc' : Int.gcd m2 m1 = 1 := by rw [Int.gcd_comm]; exact hc
  have hi1 := BN.modInverse_ok h1 hc'
  have hi2 := BN.modInverse_ok h2 hc
  have e1 := (BN.inv_spec h1 hc').1
  have e2 := (BN.inv_spec h2 hc).1
  set i1 := BN.inv m2 m1
  set i2 := BN.inv m1 m2
  refine ⟨⟨m2 * i1, m1 * i2, m1 * m2⟩, by simp [Crt.new, hi1, hi2], fun a b => ?_⟩
  have hp : 0 < m1 * m2 := Int.mul_pos h1 h2
  refine ⟨(a * (m2 * i1) + b * (m1 * i2)) % (m1 * m2), ?_, ⟨?_, ?_, ?_, ?_⟩, ?_⟩
  · simp [Crt.compute, BN.mod, ne_of_gt h1, ne_of_gt h2]
  · exact Int.emod_nonneg _ (ne_of_gt hp)
  · exact Int.emod_lt_of_pos _ hp
  · rw [Int.emod_emod_of_dvd _ (Dvd.intro _ rfl)]
    have : a * (m2 * i1) + b * (m1 * i2) ≡ a * 1 + b * (m1 * i2) [ZMOD m1] :=
      (e1.mul_left a).add_right _
    refine this.trans ?_
    exact Int.modEq_iff_dvd.2 ⟨-(b * i2), by ring⟩
  · rw [Int.emod_emod_of_dvd _ (Dvd.intro_left _ rfl)]
    have : a * (m2 * i1) + b * (m1 * i2) ≡ a * (m2 * i1) + b * 1 [ZMOD m2] :=
      (e2.mul_left b).add_left _
    refine this.trans ?_
    exact Int.modEq_iff_dvd.2 ⟨-(a * i1), by ring⟩
  · rintro y ⟨y0, y1, y2, y3⟩
    have d1 : m1 ∣ (a * (m2 * i1) + b * (m1 * i2)) - y := by
      apply Int.ModEq.dvd
      refine Int.ModEq.trans y2 ?_
      have : a * (m2 * i1) + b * (m1 * i2) ≡ a * 1 + b * (m1 * i2) [ZMOD m1] :=
        (e1.mul_left a).add_right _
      refine (this.trans ?_).symm
      exact Int.modEq_iff_dvd.2 ⟨-(b * i2), by ring⟩
    have d2 : m2 ∣ (a * (m2 * i1) + b * (m1 * i2)) - y := by
      apply Int.ModEq.dvd
      refine Int.ModEq.trans y3 ?_
      have : a * (m2 * i1) + b * (m1 * i2) ≡ a * (m2 * i1) + b * 1 [ZMOD m2] :=
        (e2.mul_left b).add_left _
      refine (this.trans ?_).symm
      exact Int.modEq_iff_dvd.2 ⟨-(a * i1), by ring⟩
    have d : m1 * m2 ∣ (a * (m2 * i1) + b * (m1 * i2)) - y :=
      (Int.isCoprime_iff_gcd_eq_one.2 hc).mul_dvd d1 d2
    have : y ≡ (a * (m2 * i1) + b * (m1 * i2)) [ZMOD (m1 * m2)] := Int.modEq_iff_dvd.2 d
    rw [← Int.emod_eq_of_lt y0 y1]
    exact this

/-- C15, refusal: moduli that are not coprime abort in the constructor (`.value()`). -/
theorem C15_crt_not_coprime (m1 m2 : Int) (hc : Int.gcd m1 m2 ≠ 1) : Crt.new m1 m2 = .crash := by
  have : Int.gcd m2 m1 ≠ 1 := by rwa [Int.gcd_comm]
  simp [Crt.new, BN.modInverse, this]

-- a concrete case meeting the hypotheses of `C15_crt`, and its value
example : (0 : Int) < 15 ∧ (0 : Int) < 28 ∧ Int.gcd 15 28 = 1 := by decide
example : (do let c ← Crt.new 15 28; Crt.compute c (-4) 33) = .ok 341 := by decide
example : Int.gcd 15 25 ≠ 1 := by decide

/-! ### C16 -/

/-- C16: whichever implementation the flag selects, and whatever radix the Montgomery library
uses, an exponentiation object computes `base ^ e mod modulus` for every exponent `e ≥ 0`, and
refuses every negative exponent. -/
theorem C16_fixed_base_exp (flag : Bool) (radixBits : Nat) (base modulus : Int)
    (f : FixedBaseExp) (hm : 0 < modulus)
    (hf : FixedBaseExp.get flag radixBits base modulus = .ok f) (e : Int) :
    (0 ≤ e → FixedBaseExp.modExp f e = .ok (base ^ e.toNat % modulus)) ∧
    (e < 0 → FixedBaseExp.modExp f e = .err .invalidArgument) :=
  ⟨fun he => FixedBaseExp.modExp_spec hm hf he, fun he => FixedBaseExp.modExp_neg he⟩

/-- C16, availability: the object can always be created with the plain implementation, and with
the table implementation exactly when the modulus is odd, above 1 and above the base, and the base is
not negative. -/
theorem C16_fixed_base_exp_create (flag : Bool) (radixBits : Nat) (base modulus : Int) :
    (∃ f, FixedBaseExp.get flag radixBits base modulus = .ok f) ↔
      (flag = true → 1 < modulus ∧ modulus % 2 = 1 ∧ 0 ≤ base ∧ base < modulus) := by
  constructor
  · rintro ⟨f, hf⟩ rfl
    simp only [FixedBaseExp.get, if_true, Res.bind_eq_ok] at hf
    obtain ⟨c, hc, one, h1, g, hg, -⟩ := hf
    unfold Mont.newCtx at hc
    split at hc
    · cases hc
    · rename_i hn
      cases hc
      unfold Mont.create at h1 hg
      simp only at h1 hg
      split at h1
      · split at hg
        · rename_i g1 g2
          exact ⟨g1.2, by omega, g2.1, g2.2⟩
        · cases hg
      · cases h1
  · exact FixedBaseExp.get_ok

example : ∃ f, FixedBaseExp.get true 64 10 77 = .ok f :=
  (C16_fixed_base_exp_create true 64 10 77).2 (by decide)
example : (do let f ← FixedBaseExp.get true 64 10 77; f.modExp 300) = .ok ((10 ^ 300 : Int) % 77) := by
  decide +kernel

/-! ### C17 -/

/-- Specification: the product of `base_i ^ e_i`. -/
def prodOfPowers (bases exps : List Int) : Int :=
  (List.zipWith (fun b e => b ^ e.toNat) bases exps).prod

theorem powProd_cast (m : Int) (bases es : List Int) (hes : ∀ e ∈ es, 0 ≤ e) :
    SimExp.powProd (bases.map (fun b : Int => (b : ZMod m.natAbs))) (es.map Int.natAbs)
      = ((prodOfPowers bases es : Int) : ZMod m.natAbs) := by
  induction bases generalizing es with
  | nil => simp [SimExp.powProd, prodOfPowers]
  | cons b bs ih =>
    cases es with
    | nil => simp [SimExp.powProd, prodOfPowers]
    | cons e es =>
      have h := ih es (fun x hx => hes x (List.mem_cons_of_mem _ hx))
      simp only [SimExp.powProd, prodOfPowers, List.map_cons, List.zipWith_cons_cons,
        List.prod_cons, Int.cast_mul, Int.cast_pow] at h ⊢
      rw [h]
      have := hes e List.mem_cons_self
      congr 2
      omega

theorem mapM_range_ok {β : Type} (f : Nat → Res β) (h : ∀ i, ∃ y, f i = .ok y) :
    ∀ n, ∃ l, (List.range n).mapM f = .ok l
  | 0 => ⟨[], by simp⟩
  | n + 1 => by
    obtain ⟨l, hl⟩ := mapM_range_ok f h n
    obtain ⟨y, hy⟩ := h n
    refine ⟨l ++ [y], ?_⟩
    rw [List.range_succ, List.mapM_append, hl]
    simp [hy]

theorem expLoop_range {s : SimExp Int} {m : Int} (hm : 1 < m) (hs : s.ops = znOps m)
    (es : List Int) : ∀ (n : Nat) (r : Int), (0 ≤ r ∧ r < m) →
      0 ≤ SimExp.expLoop s es n r ∧ SimExp.expLoop s es n r < m
  | 0, r, h => h
  | n + 1, r, h => by
    unfold SimExp.expLoop
    apply expLoop_range hm hs es n
    have hmul : ∀ a b, 0 ≤ s.ops.mul a b ∧ s.ops.mul a b < m := by
      intro a b
      rw [hs]
      exact ⟨Int.emod_nonneg _ (by omega), Int.emod_lt_of_pos _ (by omega)⟩
    unfold SimExp.bitStep
    simp only
    generalize s.numBatches = t
    induction t with
    | zero =>
      simp only [List.range_zero, List.foldl_nil]
      split
      · exact h
      · exact hmul _ _
    | succ t ih =>
      rw [List.range_succ, List.foldl_append]
      simp only [List.foldl_cons, List.foldl_nil]
      split
      · exact hmul _ _
      · exact ih

theorem znOps_interp (m : Int) :
    SimExp.Interp (znOps m) (fun b : Int => (b : ZMod m.natAbs)) :=
  ⟨fun a b => by simp [znOps, Mont.intCast_emod], fun a h => by
    simp only [znOps, decide_eq_true_eq] at h; subst h; simp⟩

/-- C17: for every nonempty list of bases, every modulus above 1 and every grouping size from 1
to the number of bases (below 31, the width of the code's `int` shift) the object can be created;
on a list of nonnegative exponents of the right length it returns the product of the powers modulo
the modulus, and on a list of any other length it returns INVALID_ARGUMENT. -/
theorem C17_simultaneous_exp (m : Int) (bases : List Int) (ns : Nat) (hm : 1 < m)
    (hns : 1 ≤ ns) (hle : ns ≤ bases.length) (hns31 : ns < 31) :
    ∃ s, SimExp.create (znOps m) bases 1 ns = .ok s ∧ ∀ es : List Int,
      (es.length = bases.length → (∀ e ∈ es, 0 ≤ e) →
        SimExp.simultaneousExp s es = .ok (prodOfPowers bases es % m)) ∧
      (es.length ≠ bases.length → SimExp.simultaneousExp s es = .err .invalidArgument) := by
  obtain ⟨tbl, ht⟩ := mapM_range_ok (SimExp.precomputeRow (znOps m) bases 1 ns)
    (fun i => by
      unfold SimExp.precomputeRow
      have : ¬ 31 ≤ min (bases.length - i * ns) ns := by omega
      simp only [this, if_false]
      exact ⟨_, rfl⟩) ((bases.length + ns - 1) / ns)
  have hcreate : SimExp.create (znOps m) bases 1 ns
      = .ok ⟨bases.length, ns, (bases.length + ns - 1) / ns, 1, znOps m, tbl⟩ := by
    simp [SimExp.create, show ns ≠ 0 by omega, not_lt.2 hle, SimExp.precompute, ht]
  refine ⟨_, hcreate, fun es => ?_⟩
  have hb := SimExp.create_built (znOps_interp m) (by simp) hcreate
  have hspec := SimExp.simultaneousExp_spec hb es
  refine ⟨fun hl hpos => ?_, hspec.2⟩
  obtain ⟨r, hr, hv⟩ := hspec.1 hl
  rw [hr]
  congr 1
  apply Mont.eq_emod_of_cast (by omega)
  · simp only [SimExp.simultaneousExp, hl, ne_eq, not_true_eq_false, if_false, Res.ok.injEq] at hr
    rw [← hr]
    exact expLoop_range hm rfl es _ _ (by omega)
  · rw [hv, powProd_cast m bases es hpos]

/-- C17 for the Montgomery instantiation: the Montgomery form returned represents the product of
the powers of the represented bases. -/
theorem C17_simultaneous_exp_mont (c : MontCtx) (bases : List Int) (ns : Nat)
    (s : SimExp Int) (one : Int) (radixBits : Nat) (m : Int) (hm : 1 < m)
    (hc : Mont.newCtx radixBits m = .ok c) (h1 : Mont.create c 1 = .ok one)
    (mb : List Int) (hmb : bases.mapM (Mont.create c) = .ok mb)
    (hs : SimExp.create (montOps c) mb one ns = .ok s)
    (es : List Int) (hl : es.length = bases.length) (hpos : ∀ e ∈ es, 0 ≤ e) :
    ∃ r, SimExp.simultaneousExp s es = .ok r ∧ Mont.toBigNum c r = prodOfPowers bases es % m := by
  have hodd : 0 < m ∧ m % 2 = 1 := by
    unfold Mont.newCtx at hc
    split at hc
    · cases hc
    · constructor <;> omega
  obtain ⟨c', hc', hcm, hg⟩ := Mont.newCtx_good (k := radixBits) hodd.1 hodd.2
  rw [hc'] at hc
  cases hc
  subst hcm
  have hi : SimExp.Interp (montOps c) (Mont.val c) := by
    refine ⟨fun a b => Mont.val_mul c a b, fun a h => ?_⟩
    simp only [montOps, decide_eq_true_eq] at h
    rw [← Mont.toBigNum_cast, h, Int.cast_one]
  have hz : Mont.val c one = 1 := by rw [Mont.val_create hg h1, Int.cast_one]
  have hb := SimExp.create_built hi hz hs
  have hmap : ∀ (l mb : List Int), l.mapM (Mont.create c) = .ok mb →
      mb.map (Mont.val c) = l.map (fun b : Int => (b : ZMod c.modulus.natAbs)) := by
    intro l
    induction l with
    | nil => intro mb h; simp at h; subst h; rfl
    | cons x xs ih =>
      intro mb h
      simp only [List.mapM_cons, Res.bind_eq_ok, Res.pure_eq, Res.ok.injEq] at h
      obtain ⟨y, hy, ys, hys, h⟩ := h
      subst h
      simp [ih ys hys, Mont.val_create hg hy]
  have hml := hmap bases mb hmb
  have hlen : mb.length = bases.length := by
    have := congrArg List.length hml
    simpa using this
  obtain ⟨r, hr, hv⟩ := (SimExp.simultaneousExp_spec hb es).1 (by omega)
  refine ⟨r, hr, ?_⟩
  apply Mont.eq_emod_of_cast hg.pos (Mont.toBigNum_range hg _)
  rw [Mont.toBigNum_cast, hv, hml, powProd_cast c.modulus bases es hpos]

/-- C17, arguments: `Create` refuses grouping size 0 and sizes above the number of bases. -/
theorem C17_create_refuses (m : Int) (bases : List Int) (zero : Int) (ns : Nat)
    (h : ns = 0 ∨ bases.length < ns) :
    SimExp.create (znOps m) bases zero ns = .err .invalidArgument := by
  unfold SimExp.create
  rcases h with h | h
  · simp [h]
  · simp [h]

/-- C17, arguments: the bound 31 is needed.  A group of 31 or more bases makes `Create` shift an
`int` by at least its width minus one, which is undefined. -/
theorem C17_wide_group_undefined (m : Int) (bases : List Int) (zero : Int) (ns : Nat)
    (h : 31 ≤ ns) (hle : ns ≤ bases.length) :
    SimExp.create (znOps m) bases zero ns = .ub := by
  unfold SimExp.create SimExp.precompute
  rw [if_neg (by omega), if_neg (by omega)]
  have hpos : 0 < (bases.length + ns - 1) / ns := Nat.div_pos (by omega) (by omega)
  obtain ⟨k, hk⟩ := Nat.exists_eq_succ_of_ne_zero hpos.ne'
  rw [hk]
  dsimp only
  rw [Nat.succ_eq_add_one, List.range_succ_eq_map, List.mapM_cons]
  have : SimExp.precomputeRow (znOps m) bases zero ns 0 = .ub := by
    unfold SimExp.precomputeRow
    rw [if_pos (by simp only [Nat.zero_mul, Nat.sub_zero]; omega)]
  rw [this]
  rfl

example : 31 ≤ 32 ∧ 32 ≤ (List.replicate 40 (3 : Int)).length := by decide

/-- Observation recorded in DESIGN.md: a negative exponent is not refused, its magnitude is used. -/
theorem C17_negative_exponent_uses_magnitude :
    (do let s ← SimExp.create (znOps 101) [3, 5] 1 2; SimExp.simultaneousExp s [-2, 1])
      = .ok 45 ∧ (9 * 45 : Int) % 101 ≠ 5 := by decide +kernel

example : (1 : Int) < 101 ∧ 1 ≤ 2 ∧ 2 ≤ ([3, 5, 7] : List Int).length ∧ 2 < 31 := by decide
example : (do let s ← SimExp.create (znOps 101) [3, 5, 7] 1 2; SimExp.simultaneousExp s [20, 0, 13])
    = .ok (prodOfPowers [3, 5, 7] [20, 0, 13] % 101) := by decide +kernel

/-! ### C67 -/

/-- C67: in a Montgomery context of an odd modulus, converting in and out is the identity on
residues, the product of two numbers converts to the modular product, and equality of Montgomery
forms is equality of residues. -/
theorem C67_montgomery (radixBits : Nat) (m : Int) (hm : 0 < m) (hodd : m % 2 = 1) :
    ∃ c, Mont.newCtx radixBits m = .ok c ∧
      ∀ a b : Int, 0 ≤ a → a < m → 0 ≤ b → b < m → ∃ x y, Mont.create c a = .ok x ∧ Mont.create c b = .ok y ∧
        Mont.toBigNum c x = a ∧
        Mont.toBigNum c (Mont.mul c x y) = (a * b) % m ∧
        (Mont.eq x y = true ↔ a = b) := by
  obtain ⟨c, hc, hcm, hg⟩ := Mont.newCtx_good (k := radixBits) hm hodd
  subst hcm
  refine ⟨c, hc, fun a b ha0 ha hb0 hb => ?_⟩
  have ca := Mont.create_ok ha0 ha
  have cb := Mont.create_ok hb0 hb
  have va := Mont.val_create hg ca
  have vb := Mont.val_create hg cb
  have ta : Mont.toBigNum c (a * c.radix % c.modulus) = a % c.modulus := by
    apply Mont.eq_emod_of_cast hg.pos (Mont.toBigNum_range hg _)
    rw [Mont.toBigNum_cast, va]
  have tb : Mont.toBigNum c (b * c.radix % c.modulus) = b % c.modulus := by
    apply Mont.eq_emod_of_cast hg.pos (Mont.toBigNum_range hg _)
    rw [Mont.toBigNum_cast, vb]
  rw [Int.emod_eq_of_lt ha0 ha] at ta
  rw [Int.emod_eq_of_lt hb0 hb] at tb
  refine ⟨_, _, ca, cb, ta, ?_, ?_⟩
  · apply Mont.eq_emod_of_cast hg.pos (Mont.toBigNum_range hg _)
    rw [Mont.toBigNum_cast, Mont.val_mul, va, vb, Int.cast_mul]
  · simp only [Mont.eq, decide_eq_true_eq]
    constructor
    · intro h
      rw [← ta, ← tb, h]
    · rintro rfl
      rfl

/-- C67, refusals: an even or non-positive modulus and a number that is negative or not below the modulus
abort. -/
theorem C67_montgomery_refuses (radixBits : Nat) (m : Int) :
    ((m ≤ 0 ∨ m % 2 = 0) → Mont.newCtx radixBits m = .crash) ∧
    ∀ c a, Mont.newCtx radixBits m = .ok c → a < 0 ∨ m ≤ a → Mont.create c a = .crash := by
  constructor
  · intro h; simp [Mont.newCtx, h]
  · intro c a hc ha
    unfold Mont.newCtx at hc
    split at hc
    · cases hc
    · cases hc
      have : ¬ (0 ≤ a ∧ a < m) := by omega
      simp [Mont.create, this]

/-- C67, bytes: in a Montgomery context of an odd modulus, the bytes of a number give that number
back, so the product of two deserialized numbers converts to the modular product. -/
theorem C67_bytes (radixBits : Nat) (m : Int) (hm : 0 < m) (hodd : m % 2 = 1) :
    ∃ c, Mont.newCtx radixBits m = .ok c ∧
      ∀ a b : Int, 0 ≤ a → a < m → 0 ≤ b → b < m → ∃ x y, Mont.create c a = .ok x ∧ Mont.create c b = .ok y ∧
        Mont.createFromBytes (Mont.toBytes x) = x ∧
        Mont.toBigNum c (Mont.mul c (Mont.createFromBytes (Mont.toBytes x))
          (Mont.createFromBytes (Mont.toBytes y))) = (a * b) % m := by
  obtain ⟨c, hc, hcm, hg⟩ := Mont.newCtx_good (k := radixBits) hm hodd
  obtain ⟨c', hc', hab⟩ := C67_montgomery radixBits m hm hodd
  rw [hc] at hc'; cases hc'
  refine ⟨c, hc, fun a b ha0 ha hb0 hb => ?_⟩
  obtain ⟨x, y, hx, hy, -, hxy, -⟩ := hab a b ha0 ha hb0 hb
  have key : ∀ {a x : Int}, Mont.create c a = .ok x → Mont.createFromBytes (Mont.toBytes x) = x := by
    intro a x h
    unfold Mont.create at h
    split at h
    · cases h
      rw [Mont.createFromBytes, Mont.toBytes, BN.ofBytes_natToBytes,
        Int.natAbs_of_nonneg (Int.emod_nonneg _ hg.pos.ne')]
    · cases h
  refine ⟨x, y, hx, hy, key hx, ?_⟩
  rw [key hx, key hy, hxy]

example : (0 : Int) < 91 ∧ (91 : Int) % 2 = 1 := by decide
example : (do let c ← Mont.newCtx 64 91; let x ← Mont.create c 50; let y ← Mont.create c 77
              return Mont.toBigNum c (Mont.mul c x y)) = .ok ((50 * 77) % 91) := by decide +kernel

end PJC.Props
