import Mathlib.Algebra.BigOperators.Group.List.Basic
import Mathlib.Data.ZMod.Basic
import Mathlib.RingTheory.Coprime.Lemmas
import Mathlib.Tactic.IntervalCases
import Verif.Model.Exp
import Verif.Lemmas.BigNum
namespace PJC
open List

/-! ### Montgomery -/
namespace Mont

/-- A context built by `newCtx`. -/
structure Good (c : MontCtx) : Prop where
  pos : 0 < c.modulus
  inv : c.radix * c.rInv ≡ 1 [ZMOD c.modulus]

theorem newCtx_good {k : Nat} {m : BigNum} (h0 : 0 < m) (h1 : m % 2 = 1) :
    ∃ c, newCtx k m = .ok c ∧ c.modulus = m ∧ Good c := by
  refine ⟨⟨m, 2 ^ k, BN.inv (2 ^ k) m⟩, ?_, rfl, h0, ?_⟩
  · simp [newCtx, h1, not_le.2 h0]
  · have hg : Int.gcd (2 ^ k) m = 1 := by
      have h2 : IsCoprime (2 : Int) m := ⟨-(m / 2), 1, by omega⟩
      exact Int.isCoprime_iff_gcd_eq_one.1 (h2.pow_left)
    exact (BN.inv_spec h0 hg).1

variable {c : MontCtx}

/-- The residue represented by a number in Montgomery form. -/
def val (c : MontCtx) (a : BigNum) : ZMod c.modulus.natAbs := (a : ZMod _) * (c.rInv : ZMod _)

theorem intCast_emod (m a : Int) : ((a % m : Int) : ZMod m.natAbs) = (a : ZMod m.natAbs) := by
  rw [ZMod.intCast_eq_intCast_iff]
  rcases Int.natAbs_eq m with h | h
  · rw [← h]; exact Int.mod_modEq _ _
  · have : ((m.natAbs : Int)) = -m := by omega
    rw [this]
    have := Int.mod_modEq a m
    rwa [Int.modEq_iff_dvd, ← neg_dvd, ← Int.modEq_iff_dvd] at this

theorem Good.cast_inv (g : Good c) :
    (c.radix : ZMod c.modulus.natAbs) * (c.rInv : ZMod c.modulus.natAbs) = 1 := by
  have h := g.inv
  have : ((c.radix * c.rInv : Int) : ZMod c.modulus.natAbs) = ((1 : Int) : ZMod c.modulus.natAbs) := by
    rw [ZMod.intCast_eq_intCast_iff]
    have : ((c.modulus.natAbs : Int)) = c.modulus := by have := g.pos; omega
    rw [this]; exact h
  push_cast at this
  exact this

theorem val_mul (c : MontCtx) (a b : BigNum) : val c (mul c a b) = val c a * val c b := by
  unfold val mul
  rw [intCast_emod]
  push_cast
  ring

theorem val_create (g : Good c) {a r : BigNum} (h : create c a = .ok r) :
    val c r = (a : ZMod _) := by
  unfold create at h
  split at h
  · cases h
    unfold val
    rw [intCast_emod]
    push_cast
    rw [mul_assoc, g.cast_inv, mul_one]
  · cases h

theorem create_ok {a : BigNum} (h0 : 0 ≤ a) (h : a < c.modulus) : create c a = .ok (a * c.radix % c.modulus) := by
  simp [create, h0, h]

theorem toBigNum_cast (c : MontCtx) (a : BigNum) :
    ((toBigNum c a : Int) : ZMod c.modulus.natAbs) = val c a := by
  unfold toBigNum val
  rw [intCast_emod]; push_cast; rfl

theorem toBigNum_range (g : Good c) (a : BigNum) :
    0 ≤ toBigNum c a ∧ toBigNum c a < c.modulus :=
  ⟨Int.emod_nonneg _ (ne_of_gt g.pos), Int.emod_lt_of_pos _ g.pos⟩

theorem eq_emod_of_cast {m x y : Int} (hm : 0 < m) (hx : 0 ≤ x ∧ x < m)
    (h : (x : ZMod m.natAbs) = (y : ZMod m.natAbs)) : x = y % m := by
  rw [ZMod.intCast_eq_intCast_iff] at h
  have e : ((m.natAbs : Int)) = m := by omega
  rw [e] at h
  have : x % m = y % m := h
  rwa [Int.emod_eq_of_lt hx.1 hx.2] at this

theorem cast_eq_of_modEq {m x y : Int} (h : x ≡ y [ZMOD m]) :
    (x : ZMod m.natAbs) = (y : ZMod m.natAbs) := by
  rw [ZMod.intCast_eq_intCast_iff]
  rcases Int.natAbs_eq m with e | e
  · rwa [← e]
  · have e' : ((m.natAbs : Int)) = -m := by omega
    rw [e']
    rwa [Int.modEq_iff_dvd, ← neg_dvd, ← Int.modEq_iff_dvd] at h

end Mont

/-! ### Fixed base exponentiation -/
namespace FixedBaseExp
open Mont

theorem cacheLoop_spec (c : MontCtx) (g : BigNum) : ∀ (n : Nat) (cache : List BigNum),
    cache ≠ [] →
    (∀ i < cache.length, val c (cache.getD i 0) = val c g ^ i) →
    (cacheLoop c g n cache).length = cache.length + n ∧
    ∀ i < cache.length + n, val c ((cacheLoop c g n cache).getD i 0) = val c g ^ i
  | 0, cache, _, h => ⟨rfl, h⟩
  | n + 1, cache, hne, h => by
    unfold cacheLoop
    have hlen : 0 < cache.length := List.length_pos_iff.2 hne
    have := cacheLoop_spec c g n (cache ++ [Mont.mul c (cache.getLastD 0) g]) (by simp) (by
      intro i hi
      simp only [List.length_append, List.length_singleton] at hi
      by_cases hlt : i < cache.length
      · rw [List.getD_append _ _ _ _ hlt]; exact h i hlt
      · have : i = cache.length := by omega
        subst this
        rw [List.getD_append_right _ _ _ _ (le_refl _)]
        simp only [Nat.sub_self, List.getD_cons_zero]
        rw [val_mul]
        have hl : cache.getLastD 0 = cache.getD (cache.length - 1) 0 := by
          rw [List.getLastD_eq_getLast?, List.getLast?_eq_getElem?]
          rfl
        rw [hl, h _ (by omega), ← pow_succ]
        congr 1
        omega)
    simp only [List.length_append, List.length_singleton] at this
    refine ⟨by omega, fun i hi => this.2 i (by omega)⟩

theorem val_square8 (c : MontCtx) (z : BigNum) : val c (square8 c z) = val c z ^ 256 := by
  unfold square8
  simp only [List.range_succ, List.range_zero, List.nil_append, List.foldl_append,
    List.foldl_cons, List.foldl_nil, val_mul]
  ring

theorem twoKAryLoop_spec (c : MontCtx) (cache : List BigNum) (b : ZMod c.modulus.natAbs)
    (h : ∀ i < 256, val c (cache.getD i 0) = b ^ i) :
    ∀ (bytes : Bytes) (z : BigNum) (k : Nat), val c z = b ^ k →
      val c (twoKAryLoop c cache bytes z)
        = b ^ (bytes.foldl (fun acc x => acc * 256 + x.val) k)
  | [], z, k, hz => by simpa [twoKAryLoop] using hz
  | x :: xs, z, k, hz => by
    have := twoKAryLoop_spec c cache b h xs (Mont.mul c (square8 c z) (cache.getD x.val 0))
      (k * 256 + x.val) (by
        rw [val_mul, val_square8, hz, h x.val x.isLt, ← pow_mul, ← pow_add])
    simpa [twoKAryLoop] using this

/-- Both implementations compute `base ^ e mod modulus`. -/
theorem modExp_spec {flag : Bool} {k : Nat} {base m e : BigNum} {f : FixedBaseExp}
    (hm : 0 < m) (hf : get flag k base m = .ok f) (he : 0 ≤ e) :
    modExp f e = .ok (base ^ e.toNat % m) := by
  unfold get at hf
  cases flag with
  | false =>
    simp only [Bool.false_eq_true, if_false] at hf
    cases hf
    simp [modExp, BN.modExp, not_lt.2 he, ne_of_gt hm]
  | true =>
    simp only [if_true, Res.bind_eq_ok] at hf
    obtain ⟨c, hc, one, h1, g, hg, hf⟩ := hf
    simp only [Res.pure_eq, Res.ok.injEq] at hf
    subst hf
    have hodd : m % 2 = 1 := by
      by_contra hcon
      have : m % 2 = 0 := by omega
      simp [Mont.newCtx, this] at hc
    obtain ⟨c', hc', hcm, hgood⟩ := newCtx_good (k := k) hm hodd
    rw [hc'] at hc
    cases hc
    subst hcm
    have v1 := val_create hgood h1
    have vg := val_create hgood hg
    have hcache := (cacheLoop_spec c g 256 [one, g] (by simp) (by
      intro i hi
      simp only [List.length_cons, List.length_nil] at hi
      interval_cases i
      · simp [v1]
      · simp)).2
    simp only [modExp, not_lt.2 he, if_false, BN.toBytes_of_nonneg he, Res.ok_bind, Res.pure_eq,
      Res.ok.injEq]
    apply eq_emod_of_cast hgood.pos (toBigNum_range hgood _)
    rw [toBigNum_cast, twoKAryLoop_spec c _ (val c g)
      (fun i hi => hcache i (by simp; omega)) _ _ 0 (by
        rw [hcache 0 (by simp)])]
    have := BN.ofBytes_natToBytes e.toNat
    have h2 := BN.ofBytes_toNat (BN.natToBytes e.toNat)
    rw [this] at h2
    simp only [Int.toNat_natCast] at h2
    rw [← h2, vg]
    push_cast
    rfl

theorem get_ok {flag : Bool} {k : Nat} {base m : BigNum}
    (h : flag = true → (1 < m ∧ m % 2 = 1 ∧ 0 ≤ base ∧ base < m)) :
    ∃ f, get flag k base m = .ok f := by
  cases flag with
  | false => exact ⟨_, rfl⟩
  | true =>
    obtain ⟨h1, h2, h0, h3⟩ := h rfl
    obtain ⟨c, hc, hcm, _⟩ := newCtx_good (k := k) (by omega : 0 < m) h2
    subst hcm
    exact ⟨_, by simp [get, hc, create_ok (by decide) h1, create_ok h0 h3]; rfl⟩

theorem modExp_neg {f : FixedBaseExp} {e : BigNum} (he : e < 0) :
    modExp f e = .err .invalidArgument := by
  simp [modExp, he]

end FixedBaseExp

/-! ### Simultaneous exponentiation -/
namespace SimExp

/-- Product of the elements selected by the bits of `j`. -/
def subsetProd {M : Type} [CommMonoid M] : List M → Nat → M
  | [], _ => 1
  | b :: bs, j => (if j % 2 = 1 then b else 1) * subsetProd bs (j / 2)

variable {M : Type} [CommMonoid M]

theorem subsetProd_zero (bs : List M) : subsetProd bs 0 = 1 := by
  induction bs with
  | nil => rfl
  | cons b bs ih => simp [subsetProd, ih]

theorem subsetProd_add_pow : ∀ (bs : List M) (h prev : Nat), h < bs.length → prev < 2 ^ h →
    subsetProd bs (prev + 2 ^ h) = subsetProd bs prev * bs.getD h 1
  | [], h, prev, hl, _ => by simp at hl
  | b :: bs, 0, prev, _, hp => by
    have : prev = 0 := by simpa using hp
    subst this
    simp [subsetProd, subsetProd_zero]
  | b :: bs, h + 1, prev, hl, hp => by
    have e1 : (prev + 2 ^ (h + 1)) % 2 = prev % 2 := by rw [pow_succ]; omega
    have e2 : (prev + 2 ^ (h + 1)) / 2 = prev / 2 + 2 ^ h := by rw [pow_succ]; omega
    have := subsetProd_add_pow bs h (prev / 2) (by simpa using hl) (by rw [pow_succ] at hp; omega)
    simp only [subsetProd, e1, e2, this, List.getD_cons_succ, mul_assoc]

variable {α : Type} [Inhabited α]

/-- The operations act on `α` as multiplication in the commutative monoid `M`. -/
structure Interp (ops : ElemOps α) (φ : α → M) : Prop where
  mul : ∀ a b, φ (ops.mul a b) = φ a * φ b
  one : ∀ a, ops.isOne a = true → φ a = 1

theorem testBit_hob {j hob : Nat} (h1 : 2 ^ hob ≤ j) (h2 : j < 2 ^ (hob + 2)) :
    j.testBit (hob + 1) = decide (2 ^ (hob + 1) ≤ j) := by
  rw [Nat.testBit_eq_decide_div_mod_eq]
  have : 0 < 2 ^ (hob + 1) := by positivity
  by_cases h : 2 ^ (hob + 1) ≤ j
  · have : j / 2 ^ (hob + 1) = 1 := by
      rw [Nat.div_eq_iff this]
      have : 2 ^ (hob + 2) = 2 * 2 ^ (hob + 1) := by rw [pow_succ]; ring
      constructor <;> omega
    simp [this, h]
  · have : j / 2 ^ (hob + 1) = 0 := Nat.div_eq_of_lt (by omega)
    simp [this, h]

theorem rowLoop_spec {ops : ElemOps α} {φ : α → M} (hi : Interp ops φ) (bases : List α)
    (start items : Nat) (hs : start + items ≤ bases.length) :
    ∀ (n j hob : Nat) (row : List α), j = row.length → 0 < j → j + n = 2 ^ items →
      (hob = 0 ∧ j = 1 ∨ 2 ^ hob ≤ j - 1 ∧ j - 1 < 2 ^ (hob + 1)) →
      (∀ i < j, φ (row.getD i default)
        = subsetProd (((bases.drop start).take items).map φ) i) →
      ∀ i < 2 ^ items, φ ((rowLoop ops bases start n j hob row).getD i default)
        = subsetProd (((bases.drop start).take items).map φ) i
  | 0, j, hob, row, hj, h0, hn, hh, hr => by
    intro i hi2
    exact hr i (by omega)
  | n + 1, j, hob, row, hj, h0, hn, hh, hr => by
    unfold rowLoop
    have hb : j.testBit (hob + 1) = decide (2 ^ (hob + 1) ≤ j) := by
      rcases hh with ⟨h1, h2⟩ | ⟨h1, h2⟩
      · subst h1; subst h2; decide
      · apply testBit_hob (by omega)
        have : 2 ^ (hob + 2) = 2 * 2 ^ (hob + 1) := by rw [pow_succ]; ring
        have : 1 ≤ 2 ^ (hob + 1) := Nat.one_le_two_pow
        omega
    set hob' := if j.testBit (hob + 1) then hob + 1 else hob with hhob
    have hob_spec : 2 ^ hob' ≤ j ∧ j < 2 ^ (hob' + 1) := by
      rw [hhob, hb]
      by_cases hc : 2 ^ (hob + 1) ≤ j
      · simp only [hc, decide_true, if_true, true_and]
        have : 2 ^ (hob + 1 + 1) = 2 * 2 ^ (hob + 1) := by rw [pow_succ]; ring
        have : 1 ≤ 2 ^ (hob + 1) := Nat.one_le_two_pow
        rcases hh with ⟨h1, h2⟩ | ⟨h1, h2⟩
        · subst h1; subst h2; simp at hc
        · omega
      · simp only [hc, decide_false, Bool.false_eq_true, if_false]
        rcases hh with ⟨h1, h2⟩ | ⟨h1, h2⟩
        · subst h1; subst h2; simp
        · omega
    have hitems : hob' < items := by
      by_contra hc
      have : 2 ^ items ≤ 2 ^ hob' := Nat.pow_le_pow_right (by norm_num) (by omega)
      omega
    have hp2 : 2 ^ (hob' + 1) = 2 * 2 ^ hob' := by rw [pow_succ]; ring
    have hlen : (((bases.drop start).take items).map φ).length = items := by
      simp; omega
    have hget : φ (bases.getD (start + hob') default)
        = (((bases.drop start).take items).map φ).getD hob' 1 := by
      rw [List.getD_eq_getElem _ _ (by omega : start + hob' < bases.length),
        List.getD_eq_getElem _ _ (by omega)]
      simp [List.getElem_take, List.getElem_drop]
    have hval : φ (if j - 2 ^ hob' = 0 then bases.getD (start + hob') default
        else ops.mul (row.getD (j - 2 ^ hob') default) (bases.getD (start + hob') default))
        = subsetProd (((bases.drop start).take items).map φ) j := by
      have := subsetProd_add_pow (((bases.drop start).take items).map φ) hob' (j - 2 ^ hob')
        (by omega) (by omega)
      rw [show j - 2 ^ hob' + 2 ^ hob' = j by omega] at this
      split
      · rename_i h
        rw [hget, this, h, subsetProd_zero, one_mul]
      · rw [hi.mul, hr _ (by have : 0 < 2 ^ hob' := by positivity
                             omega), hget, this]
    apply rowLoop_spec hi bases start items hs n (j + 1) hob'
    · simp [hj]
    · omega
    · omega
    · right; constructor <;> simp <;> omega
    · intro i hi2
      by_cases hlt : i < j
      · rw [List.getD_append _ _ _ _ (by omega)]; exact hr i hlt
      · have : i = j := by omega
        subst this
        rw [List.getD_append_right _ _ _ _ (by omega)]
        rw [hj, Nat.sub_self, ← hj, List.getD_cons_zero]
        exact hval

/-- The bits of the exponents, as a table index. -/
def packBits (es : List BigNum) (i : Nat) : Nat :=
  es.foldr (fun e acc => (if BN.isBitSet e i then 1 else 0) + 2 * acc) 0

theorem foldl_idx (f : Nat → Bool) : ∀ (n a : Nat),
    (List.range n).foldl (fun idx k => if f k then idx + 2 ^ k else idx) a
      = a + (List.range n).foldl (fun idx k => if f k then idx + 2 ^ k else idx) 0
  | 0, a => by simp
  | n + 1, a => by
    rw [List.range_succ, List.foldl_append, List.foldl_append, foldl_idx f n a]
    simp only [List.foldl_cons, List.foldl_nil]
    split <;> omega

theorem subsetProd_foldl (bs : List M) (es : List BigNum) (i : Nat) :
    ∀ n, n ≤ bs.length → n ≤ es.length →
    let idx := (List.range n).foldl
      (fun idx k => if BN.isBitSet (es.getD k 0) i then idx + 2 ^ k else idx) 0
    idx < 2 ^ n ∧
    subsetProd bs idx =
      (List.zipWith (fun b e => if BN.isBitSet e i then b else 1) (bs.take n) (es.take n)).prod
  | 0, _, _ => by simp [subsetProd_zero]
  | n + 1, hb, he => by
    have ih := subsetProd_foldl bs es i n (by omega) (by omega)
    simp only at ih ⊢
    rw [List.range_succ, List.foldl_append]
    simp only [List.foldl_cons, List.foldl_nil]
    set idx := (List.range n).foldl
      (fun idx k => if BN.isBitSet (es.getD k 0) i then idx + 2 ^ k else idx) 0
    have hp2 : 2 ^ (n + 1) = 2 * 2 ^ n := by rw [pow_succ]; ring
    have tb : bs.take (n + 1) = bs.take n ++ [bs.getD n 1] := by
      rw [List.take_add_one, List.getD_eq_getElem _ _ (by omega), List.getElem?_eq_getElem (by omega)]
      rfl
    have te : es.take (n + 1) = es.take n ++ [es.getD n 0] := by
      rw [List.take_add_one, List.getD_eq_getElem _ _ (by omega), List.getElem?_eq_getElem (by omega)]
      rfl
    rw [tb, te, List.zipWith_append (by simp; omega), List.prod_append]
    simp only [List.zipWith_cons_cons, List.zipWith_nil_left, List.prod_cons, List.prod_nil, mul_one]
    split
    · refine ⟨by omega, ?_⟩
      rw [subsetProd_add_pow bs n idx (by omega) ih.1, ih.2]
    · refine ⟨by omega, ?_⟩
      rw [ih.2, mul_one]

/-- A created object: shape and table contents. -/
structure Built (s : SimExp α) (φ : α → M) (bases : List α) : Prop where
  interp : Interp s.ops φ
  numBases : s.numBases = bases.length
  pos : 0 < s.numSimultaneous
  batches : s.numBatches = (bases.length + s.numSimultaneous - 1) / s.numSimultaneous
  zero : φ s.zero = 1
  table : ∀ j < s.numBatches,
    ∀ i < 2 ^ (min (bases.length - j * s.numSimultaneous) s.numSimultaneous),
      φ ((s.table.getD j []).getD i default)
        = subsetProd (((bases.drop (j * s.numSimultaneous)).take
            (min (bases.length - j * s.numSimultaneous) s.numSimultaneous)).map φ) i

theorem mapM_range_getD {β : Type} (f : Nat → Res β) (d : β) : ∀ (n : Nat) (l : List β),
    (List.range n).mapM f = .ok l → l.length = n ∧ ∀ i < n, f i = .ok (l.getD i d)
  | 0, l, h => by simp at h; subst h; simp
  | n + 1, l, h => by
    rw [List.range_succ, List.mapM_append, Res.bind_eq_ok] at h
    obtain ⟨a, ha, h⟩ := h
    rw [Res.bind_eq_ok] at h
    obtain ⟨b, hb, h⟩ := h
    simp only [Res.pure_eq, Res.ok.injEq] at h
    simp only [List.mapM_cons, List.mapM_nil, Res.bind_eq_ok, Res.pure_eq, Res.ok.injEq] at hb
    obtain ⟨x, hx, y, hy, hb⟩ := hb
    subst hy; subst hb; subst h
    have ih := mapM_range_getD f d n a ha
    refine ⟨by simp [ih.1], fun i hi => ?_⟩
    by_cases hlt : i < n
    · rw [List.getD_append _ _ _ _ (by omega)]; exact ih.2 i hlt
    · have : i = n := by omega
      subst this
      rw [List.getD_append_right _ _ _ _ (by omega)]
      simp [ih.1, hx]

theorem create_built {ops : ElemOps α} {φ : α → M} (hi : Interp ops φ) {bases : List α}
    {zero : α} {ns : Nat} {s : SimExp α} (hz : φ zero = 1)
    (h : create ops bases zero ns = .ok s) : Built s φ bases := by
  unfold create at h
  split at h
  · cases h
  split at h
  · cases h
  rename_i h1 h2
  simp only [Res.bind_eq_ok, Res.pure_eq, Res.ok.injEq] at h
  obtain ⟨table, ht, h⟩ := h
  subst h
  refine ⟨hi, rfl, by simp only; omega, rfl, hz, ?_⟩
  intro j hj i hi2
  simp only at hj hi2 ⊢
  have := (mapM_range_getD _ [] _ _ ht).2 j hj
  unfold precomputeRow at this
  simp only at this
  split at this
  · cases this
  · simp only [Res.ok.injEq] at this
    rw [← this]
    apply rowLoop_spec hi bases (j * ns) _ _ _ 1 0 [zero] (by simp) (by omega) _ (by simp) _ i hi2
    · have : j * ns < bases.length := by
        have h3 : j + 1 ≤ (bases.length + ns - 1) / ns := hj
        rw [Nat.le_div_iff_mul_le (by omega)] at h3
        rw [Nat.add_mul] at h3
        omega
      omega
    · have : 0 < 2 ^ (min (bases.length - j * ns) ns) := by positivity
      omega
    · intro i hi3
      have : i = 0 := by omega
      subst this
      simp [hz, subsetProd_zero]

/-- Product selected by bit `i` of every exponent. -/
def bitProd (bs : List M) (es : List BigNum) (i : Nat) : M :=
  (List.zipWith (fun b e => if BN.isBitSet e i then b else 1) bs es).prod

/-- Product of the powers. -/
def powProd (bs : List M) (es : List Nat) : M := (List.zipWith (fun b e => b ^ e) bs es).prod

theorem take_drop_getD (es : List BigNum) (a k n : Nat) (h : k < n) :
    ((es.drop a).take n).getD k 0 = es.getD (a + k) 0 := by
  simp [List.getD_eq_getElem?_getD, List.getElem?_take, h]

theorem batch_fold {s : SimExp α} {φ : α → M} {bases : List α} (hb : Built s φ bases)
    (es : List BigNum) (he : es.length = bases.length) (i : Nat) (r : α) :
    ∀ t, t ≤ s.numBatches →
      φ ((List.range t).foldl (fun r j =>
        let idx := precomputeIdx s es i j
        if idx ≠ 0 then s.ops.mul r ((s.table.getD j []).getD idx default) else r) r)
      = φ r * bitProd ((bases.map φ).take (t * s.numSimultaneous))
          (es.take (t * s.numSimultaneous)) i
  | 0, _ => by simp [bitProd]
  | t + 1, ht => by
    have ih := batch_fold hb es he i r t (by omega)
    rw [List.range_succ, List.foldl_append]
    simp only [List.foldl_cons, List.foldl_nil]
    set r' := (List.range t).foldl (fun r j =>
        let idx := precomputeIdx s es i j
        if idx ≠ 0 then s.ops.mul r ((s.table.getD j []).getD idx default) else r) r
    set ns := s.numSimultaneous with hns
    set sz := min (bases.length - t * ns) ns with hsz
    have hbs : (if s.numBases - t * s.numSimultaneous < s.numSimultaneous
        then s.numBases - t * s.numSimultaneous else s.numSimultaneous) = sz := by
      rw [hb.numBases, ← hns, hsz]
      split <;> omega
    have htlt : t * ns < bases.length := by
      have h3 : t + 1 ≤ (bases.length + ns - 1) / ns := by rw [← hb.batches]; exact ht
      have hpos : 0 < ns := hb.pos
      rw [Nat.le_div_iff_mul_le hpos, Nat.add_mul] at h3
      omega
    have hidx : precomputeIdx s es i t = (List.range sz).foldl
      (fun idx k => if BN.isBitSet (((es.drop (t * ns)).take sz).getD k 0) i
        then idx + 2 ^ k else idx) 0 := by
      unfold precomputeIdx
      simp only
      rw [hbs]
      apply List.foldl_ext
      intro a k hk
      rw [take_drop_getD _ _ _ _ (List.mem_range.1 hk)]
    have hsub := subsetProd_foldl (((bases.drop (t * ns)).take sz).map φ)
      ((es.drop (t * ns)).take sz) i sz (by simp; omega) (by simp; omega)
    simp only at hsub
    rw [← hidx] at hsub
    have hstep : φ (if precomputeIdx s es i t ≠ 0 then
        s.ops.mul r' ((s.table.getD t []).getD (precomputeIdx s es i t) default) else r')
        = φ r' * bitProd (((bases.drop (t * ns)).take sz).map φ) ((es.drop (t * ns)).take sz) i := by
      have e : bitProd (((bases.drop (t * ns)).take sz).map φ) ((es.drop (t * ns)).take sz) i
          = subsetProd (((bases.drop (t * ns)).take sz).map φ) (precomputeIdx s es i t) := by
        rw [hsub.2]
        unfold bitProd
        rw [← List.map_take, List.take_take, List.take_take, min_self]
      rw [e]
      split
      · rw [hb.interp.mul]
        congr 1
        exact hb.table t (by omega) _ hsub.1
      · rename_i h
        simp only [not_not] at h
        rw [h, subsetProd_zero, mul_one]
    rw [hstep, ih, mul_assoc]
    congr 1
    have split1 : ∀ {β : Type} (l : List β), l.length = bases.length →
        l.take ((t + 1) * ns) = l.take (t * ns) ++ (l.drop (t * ns)).take sz := by
      intro β l hl
      have : (t + 1) * ns = t * ns + ns := by ring
      rw [this, List.take_add]
      congr 1
      by_cases hc : bases.length - t * ns ≤ ns
      · rw [hsz, min_eq_left hc, List.take_of_length_le (by simp; omega),
          List.take_of_length_le (by simp; omega)]
      · rw [hsz, min_eq_right (by omega)]
    unfold bitProd
    rw [split1 (bases.map φ) (by simp), split1 es he, List.zipWith_append (by simp; omega),
      List.prod_append, List.map_take, List.map_drop]

theorem bitStep_spec {s : SimExp α} {φ : α → M} {bases : List α} (hb : Built s φ bases)
    (es : List BigNum) (he : es.length = bases.length) (i : Nat) (r : α) :
    φ (bitStep s es i r) = φ r * φ r * bitProd (bases.map φ) es i := by
  unfold bitStep
  simp only
  have := batch_fold hb es he i (if s.ops.isOne r then r else s.ops.mul r r) s.numBatches (le_refl _)
  rw [this]
  have hge : bases.length ≤ s.numBatches * s.numSimultaneous := by
    rw [hb.batches]
    have h1 := Nat.div_add_mod (bases.length + s.numSimultaneous - 1) s.numSimultaneous
    have h2 := Nat.mod_lt (bases.length + s.numSimultaneous - 1) hb.pos
    rw [Nat.mul_comm] at h1
    have := hb.pos
    omega
  rw [List.take_of_length_le (by simpa using hge), List.take_of_length_le (by omega)]
  congr 1
  split
  · rename_i h
    rw [hb.interp.one r h, mul_one]
  · rw [hb.interp.mul]

theorem powProd_step (bs : List M) (es : List BigNum) (i : Nat) :
    powProd bs (es.map (fun e => e.natAbs / 2 ^ i))
      = powProd bs (es.map (fun e => e.natAbs / 2 ^ (i + 1)))
        * powProd bs (es.map (fun e => e.natAbs / 2 ^ (i + 1))) * bitProd bs es i := by
  induction bs generalizing es with
  | nil => simp [powProd, bitProd]
  | cons b bs ih =>
    cases es with
    | nil => simp [powProd, bitProd]
    | cons e es =>
      simp only [powProd, bitProd, List.map_cons, List.zipWith_cons_cons, List.prod_cons] at ih ⊢
      rw [ih es]
      have hd : e.natAbs / 2 ^ i
          = e.natAbs / 2 ^ (i + 1) + e.natAbs / 2 ^ (i + 1) + (if BN.isBitSet e i then 1 else 0) := by
        unfold BN.isBitSet
        rw [Nat.testBit_eq_decide_div_mod_eq, pow_succ, ← Nat.div_div_eq_div_mul]
        by_cases h : e.natAbs / 2 ^ i % 2 = 1
        · simp [h]; omega
        · simp [h]; omega
      rw [hd, pow_add, pow_add]
      have : (b ^ (if BN.isBitSet e i then 1 else 0)) = (if BN.isBitSet e i then b else 1) := by
        split <;> simp
      rw [this]
      simp only [mul_assoc, mul_comm, mul_left_comm]

theorem powProd_zero (bs : List M) (es : List BigNum) (n : Nat)
    (h : ∀ e ∈ es, BN.bitLength e ≤ n) :
    powProd bs (es.map (fun e => e.natAbs / 2 ^ n)) = 1 := by
  induction bs generalizing es with
  | nil => simp [powProd]
  | cons b bs ih =>
    cases es with
    | nil => simp [powProd]
    | cons e es =>
      have := ih es (fun x hx => h x (List.mem_cons_of_mem _ hx))
      simp only [powProd, List.map_cons, List.zipWith_cons_cons, List.prod_cons] at this ⊢
      rw [this]
      have h2 := h e List.mem_cons_self
      unfold BN.bitLength at h2
      rw [Nat.size_le] at h2
      rw [Nat.div_eq_of_lt h2]
      simp

theorem maxBitLength_foldl (es : List BigNum) : ∀ a,
    a ≤ es.foldl (fun acc e => if acc < BN.bitLength e then BN.bitLength e else acc) a ∧
    ∀ e ∈ es, BN.bitLength e
      ≤ es.foldl (fun acc e => if acc < BN.bitLength e then BN.bitLength e else acc) a := by
  induction es with
  | nil => intro a; simp
  | cons x xs ih =>
    intro a
    simp only [List.foldl_cons, List.mem_cons, forall_eq_or_imp]
    have := ih (if a < BN.bitLength x then BN.bitLength x else a)
    refine ⟨?_, ?_, this.2⟩
    · refine le_trans ?_ this.1
      split <;> omega
    · refine le_trans ?_ this.1
      split <;> omega

theorem expLoop_spec {s : SimExp α} {φ : α → M} {bases : List α} (hb : Built s φ bases)
    (es : List BigNum) (he : es.length = bases.length) : ∀ (n : Nat) (r : α),
    φ r = powProd (bases.map φ) (es.map (fun e => e.natAbs / 2 ^ n)) →
    φ (expLoop s es n r) = powProd (bases.map φ) (es.map Int.natAbs)
  | 0, r, h => by simpa [expLoop] using h
  | n + 1, r, h => by
    unfold expLoop
    apply expLoop_spec hb es he n
    rw [bitStep_spec hb es he, h, ← powProd_step]

theorem simultaneousExp_spec {s : SimExp α} {φ : α → M} {bases : List α} (hb : Built s φ bases)
    (es : List BigNum) :
    (es.length = bases.length →
      ∃ r, simultaneousExp s es = .ok r ∧ φ r = powProd (bases.map φ) (es.map Int.natAbs)) ∧
    (es.length ≠ bases.length → simultaneousExp s es = .err .invalidArgument) := by
  constructor
  · intro he
    refine ⟨expLoop s es (maxBitLength es) s.zero, ?_, ?_⟩
    · simp [simultaneousExp, hb.numBases, he]
    · apply expLoop_spec hb es he
      rw [hb.zero, powProd_zero]
      exact (maxBitLength_foldl es 0).2
  · intro he
    simp [simultaneousExp, hb.numBases, he]

end SimExp
end PJC
