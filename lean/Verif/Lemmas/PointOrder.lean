import Verif.Lemmas.Weierstrass
import Mathlib.GroupTheory.Perm.Cycle.Type
import Mathlib.FieldTheory.Finite.Basic
/-
The number of points of a concrete curve, from certificates the kernel can check: a chain
of slopes that leads from the base point G to -G, and an inverse in the cubic ring that
shows that no point has y-coordinate zero.
-/
namespace PJC
namespace Curve

open WeierstrassCurve.Affine

variable {p : Nat} [Fact p.Prime]

/-- One step of a chain: the slope of the tangent, and of the line through the base point
if that is added. -/
abbrev Step := Int × Option Int

/-- Follows a chain of slopes from a point; `none` if a slope is wrong. -/
def runChain (p a gx gy : Int) : List Step → Int × Int → Option (Int × Int)
  | [], P => some P
  | (l, m) :: rest, (x, y) =>
    if (2 * y * l - (3 * x * x + a)) % p = 0 ∧ (2 * y) % p ≠ 0 then
      let x' := (l * l - 2 * x) % p
      let y' := (l * (x - x') - y) % p
      match m with
      | none => runChain p a gx gy rest (x', y')
      | some m =>
        if (m * (x' - gx) - (y' - gy)) % p = 0 ∧ (x' - gx) % p ≠ 0 then
          let x'' := (m * m - x' - gx) % p
          let y'' := (m * (x' - x'') - y') % p
          runChain p a gx gy rest (x'', y'')
        else none
    else none

/-- The multiple of the base point that a chain computes. -/
def chainScalar : List Step → Nat → Nat
  | [], k => k
  | (_, none) :: rest, k => chainScalar rest (2 * k)
  | (_, some _) :: rest, k => chainScalar rest (2 * k + 1)

/-- The point `P` has the coordinates `x` and `y`. -/
def Has (c : Curve) (P : (c.W p).Point) (x y : Int) : Prop :=
  ∃ h : (c.W p).Nonsingular (x : ZMod p) (y : ZMod p), P = .some _ _ h

theorem Has.mk' {c : Curve} {X Y : ZMod p} (h : (c.W p).Nonsingular X Y) {x y : Int}
    (hx : X = x) (hy : Y = y) : c.Has (.some _ _ h) x y := by
  subst hx hy
  exact ⟨h, rfl⟩

theorem cast_eq_zero {z : Int} : (z : ZMod p) = 0 ↔ z % p = 0 := by
  rw [ZMod.intCast_zmod_eq_zero_iff_dvd, Int.dvd_iff_emod_eq_zero]

theorem cast_mod (z : Int) : ((z % p : Int) : ZMod p) = z :=
  ZMod.intCast_mod z p

theorem Has.add {c : Curve} {P Q : (c.W p).Point} {x y u v m : Int} (hP : c.Has P x y)
    (hQ : c.Has Q u v) (h1 : (m * (x - u) - (y - v)) % p = 0) (h2 : (x - u) % p ≠ 0) :
    c.Has (P + Q) ((m * m - x - u) % p) ((m * (x - (m * m - x - u) % p) - y) % p) := by
  obtain ⟨hP, rfl⟩ := hP
  obtain ⟨hQ, rfl⟩ := hQ
  have hne : (x : ZMod p) ≠ u := by
    intro e
    apply h2
    rw [← cast_eq_zero]
    push_cast
    rw [e, sub_self]
  have hsl : (c.W p).slope (x : ZMod p) u y v = m := by
    rw [slope_of_X_ne hne, div_eq_iff (sub_ne_zero.2 hne)]
    have := (cast_eq_zero (p := p)).2 h1
    push_cast at this
    linear_combination -this
  rw [Point.add_some (fun h => hne h.1)]
  refine Has.mk' _ ?_ ?_
  · rw [hsl, cast_mod]
    simp only [addX]
    push_cast
    ring
  · rw [hsl, cast_mod]
    push_cast
    simp only [addY, negAddY, negY, addX]
    push_cast
    ring

theorem Has.dbl {c : Curve} {P : (c.W p).Point} {x y l : Int} (hP : c.Has P x y)
    (h1 : (2 * y * l - (3 * x * x + c.a)) % p = 0) (h2 : (2 * y) % p ≠ 0) :
    c.Has (P + P) ((l * l - 2 * x) % p) ((l * (x - (l * l - 2 * x) % p) - y) % p) := by
  obtain ⟨hP, rfl⟩ := hP
  have hne' : (2 * y : ZMod p) ≠ 0 := by
    intro e
    apply h2
    rw [← cast_eq_zero]
    push_cast
    exact e
  have hneg : (c.W p).negY (x : ZMod p) y = -y := by simp [negY]
  have hne : (y : ZMod p) ≠ (c.W p).negY (x : ZMod p) y := by
    rw [hneg]
    intro e
    apply hne'
    linear_combination e
  have hsl : (c.W p).slope (x : ZMod p) x y y = l := by
    rw [slope_of_Y_ne rfl hne, hneg, div_eq_iff (by rw [sub_neg_eq_add, ← two_mul]; exact hne')]
    have := (cast_eq_zero (p := p)).2 h1
    push_cast at this
    simp only
    linear_combination -this
  rw [Point.add_some (fun h => hne h.2)]
  refine Has.mk' _ ?_ ?_
  · rw [hsl, cast_mod]
    simp only [addX]
    push_cast
    ring
  · rw [hsl, cast_mod]
    push_cast
    simp only [addY, negAddY, negY, addX]
    push_cast
    ring

theorem runChain_sound {c : Curve} (G : (c.W p).Point) {gx gy : Int} (hG : c.Has G gx gy) :
    ∀ (steps : List Step) (k : Nat) (x y x' y' : Int), c.Has (k • G) x y →
      runChain p c.a gx gy steps (x, y) = some (x', y') →
      c.Has (chainScalar steps k • G) x' y' := by
  intro steps
  induction steps with
  | nil =>
    intro k x y x' y' hk h
    simp only [runChain, Option.some.injEq, Prod.mk.injEq] at h
    obtain ⟨rfl, rfl⟩ := h
    exact hk
  | cons st rest ih =>
    obtain ⟨l, m⟩ := st
    intro k x y x' y' hk h
    rw [runChain] at h
    split at h
    · rename_i hc
      have hd := hk.dbl hc.1 hc.2
      rw [← two_nsmul, ← mul_nsmul', ] at hd
      cases m with
      | none => exact ih _ _ _ _ _ hd h
      | some m =>
        simp only at h
        split at h
        · rename_i hc2
          have ha := hd.add hG hc2.1 hc2.2
          rw [← succ_nsmul] at ha
          exact ih _ _ _ _ _ ha h
        · cases h
    · cases h

/-- A chain from G to -G shows that one more than its scalar kills G. -/
theorem order_smul_of_chain {c : Curve} (G : (c.W p).Point) {gx gy : Int} (hG : c.Has G gx gy)
    (steps : List Step) {y' : Int} (hrun : runChain p c.a gx gy steps (gx, gy) = some (gx, y'))
    (hy : (y' + gy) % p = 0) : (chainScalar steps 1 + 1) • G = 0 := by
  have h := runChain_sound G hG steps 1 gx gy gx y' (by rwa [one_nsmul]) hrun
  rw [succ_nsmul, add_eq_zero_iff_eq_neg]
  obtain ⟨h1, e1⟩ := h
  obtain ⟨h2, rfl⟩ := hG
  rw [e1, Point.neg_some]
  have := (cast_eq_zero (p := p)).2 hy
  push_cast at this
  congr 1
  simp only [negY]
  linear_combination this

/-! ### No point with y-coordinate zero -/

/-- Polynomials of degree at most two. -/
abbrev Quad := Int × Int × Int

/-- The product modulo x^3 + a x + b and modulo p. -/
def mulQ (p a b : Int) (s t : Quad) : Quad :=
  let c3 := s.2.1 * t.2.2 + s.2.2 * t.2.1
  let c4 := s.2.2 * t.2.2
  ((s.1 * t.1 - b * c3) % p,
    (s.1 * t.2.1 + s.2.1 * t.1 - a * c3 - b * c4) % p,
    (s.1 * t.2.2 + s.2.1 * t.2.1 + s.2.2 * t.1 - a * c4) % p)

/-- Powers by squaring. -/
def powQ (p a b : Int) : Nat → Quad → Nat → Quad
  | 0, _, _ => (1, 0, 0)
  | fuel + 1, s, e =>
    if e = 0 then (1, 0, 0)
    else
      let r := powQ p a b fuel (mulQ p a b s s) (e / 2)
      if e % 2 = 1 then mulQ p a b s r else r

/-- The value at `x`. -/
def evalQ (x : ZMod p) (s : Quad) : ZMod p := s.1 + s.2.1 * x + s.2.2 * x ^ 2

theorem evalQ_mul {a b : Int} {x : ZMod p} (hx : x ^ 3 + a * x + b = 0) (s t : Quad) :
    evalQ x (mulQ p a b s t) = evalQ x s * evalQ x t := by
  simp only [evalQ, mulQ, cast_mod]
  push_cast
  linear_combination (-(s.2.1 * t.2.2 + s.2.2 * t.2.1 : ZMod p) - s.2.2 * t.2.2 * x) * hx

theorem evalQ_pow {a b : Int} {x : ZMod p} (hx : x ^ 3 + a * x + b = 0) :
    ∀ (fuel : Nat) (s : Quad) (e : Nat), e < 2 ^ fuel →
      evalQ x (powQ p a b fuel s e) = evalQ x s ^ e := by
  intro fuel
  induction fuel with
  | zero =>
    intro s e he
    obtain rfl : e = 0 := by omega
    simp [powQ, evalQ]
  | succ n ih =>
    intro s e he
    by_cases h0 : e = 0
    · subst h0; simp [powQ, evalQ]
    · have hlt : e / 2 < 2 ^ n := by rw [pow_succ] at he; omega
      have hr : evalQ x (powQ p a b n (mulQ p a b s s) (e / 2)) = evalQ x s ^ (2 * (e / 2)) := by
        rw [ih _ _ hlt, evalQ_mul hx, ← pow_two, ← pow_mul]
      simp only [powQ, h0, if_false]
      split
      · rw [evalQ_mul hx, hr, ← pow_succ']
        congr 1
        omega
      · rw [hr]
        congr 1
        omega

/-- An inverse of x^p - x modulo the cubic shows that the cubic has no root. -/
theorem no_root_of_cert {a b : Int} (fuel : Nat) (hf : p < 2 ^ fuel) (w : Quad)
    (h : mulQ p a b (powQ p a b fuel (0, 1, 0) p - (0, 1, 0)) w = (1, 0, 0))
    (x : ZMod p) : x ^ 3 + a * x + b ≠ 0 := by
  intro hx
  have h1 := congrArg (evalQ x) h
  rw [evalQ_mul hx] at h1
  have h2 : evalQ x (powQ p a b fuel (0, 1, 0) p - (0, 1, 0)) = 0 := by
    have h3 := evalQ_pow hx fuel (0, 1, 0) p hf
    have h4 : evalQ x (0, 1, 0) = x := by simp [evalQ]
    rw [h4, ZMod.pow_card] at h3
    generalize powQ p a b fuel (0, 1, 0) p = q at h3
    simp only [evalQ, Prod.fst_sub, Prod.snd_sub] at h3 ⊢
    push_cast
    linear_combination h3
  rw [h2] at h1
  simp [evalQ] at h1

/-! ### The number of points -/

theorem card_le {c : Curve} (hc : c.Proper p) : Finite (c.W p).Point ∧ Nat.card (c.W p).Point ≤ 2 * p + 1 := by
  let f : (c.W p).Point → Option (ZMod p × Bool) := fun P =>
    match P with
    | .zero => none
    | .some x y _ => some (x, decide (y.val % 2 = 1))
  have hinj : Function.Injective f := by
    intro P Q h
    cases P with
    | zero =>
      cases Q with
      | zero => rfl
      | some x y hy => cases h
    | some x y hy =>
      cases Q with
      | zero => cases h
      | some u v hv =>
        simp only [f, Option.some.injEq, Prod.mk.injEq, decide_eq_decide] at h
        obtain ⟨rfl, hpar⟩ := h
        have h1 := (c.onCurve_iff _ _).1 (ofPoint_onCurve hc x y hy)
        have h2 := (c.onCurve_iff _ _).1 (ofPoint_onCurve hc x v hv)
        obtain ⟨-, -, a0, a1, a2⟩ := h1
        obtain ⟨-, -, b0, b1, b2⟩ := h2
        rw [hc.hp] at a1 a2 b1 b2
        have e := root_unique hc.prime hc.odd a0 a1 b0 b1 a2 b2 (by omega)
        have : y = v := ZMod.val_injective p (by exact_mod_cast e)
        subst this
        rfl
  refine ⟨Finite.of_injective f hinj, ?_⟩
  have := Nat.card_le_card_of_injective f hinj
  rw [Nat.card_eq_fintype_card (α := Option (ZMod p × Bool)), Fintype.card_option, Fintype.card_prod, ZMod.card,
    Fintype.card_bool] at this
  omega

theorem card_of_certs {c : Curve} (hc : c.Proper p) (hroot : ∀ x : ZMod p, x ^ 3 + c.a * x + c.b ≠ 0)
    (G : (c.W p).Point) (hG : G ≠ 0) {n : Nat} (hn : n.Prime) (hnG : n • G = 0)
    (hbig : 2 * p + 1 < 3 * n) : Nat.card (c.W p).Point = n := by
  obtain ⟨hfin, hle⟩ := card_le hc
  have : Fact n.Prime := ⟨hn⟩
  have hdvd : n ∣ Nat.card (c.W p).Point := by
    have : addOrderOf G = n := addOrderOf_eq_prime hnG hG
    rw [← this]
    exact addOrderOf_dvd_natCard G
  have hpos : 0 < Nat.card (c.W p).Point := Nat.card_pos
  obtain ⟨k, hk⟩ := hdvd
  have hk1 : k = 1 ∨ k = 2 := by
    have : k < 3 := by
      by_contra hcon
      have := Nat.mul_le_mul_left n (show 3 ≤ k by omega)
      omega
    have : k ≠ 0 := by rintro rfl; omega
    omega
  rcases hk1 with rfl | rfl
  · omega
  · exfalso
    have : Fact (Nat.Prime 2) := ⟨Nat.prime_two⟩
    obtain ⟨P, hP⟩ := exists_prime_addOrderOf_dvd_card' 2 (Dvd.intro_left n hk.symm)
    have h2 : 2 • P = 0 := by rw [← hP]; exact addOrderOf_nsmul_eq_zero P
    have h0 : P ≠ 0 := by rintro rfl; simp at hP
    rw [two_nsmul, add_eq_zero_iff_eq_neg] at h2
    cases P with
    | zero => exact h0 rfl
    | some x y hy =>
      rw [Point.neg_some, Point.some.injEq] at h2
      have hy0 : 2 * y = 0 := by
        have := h2.2
        simp only [negY] at this
        linear_combination this
      have h2p : (2 : ZMod p) ≠ 0 := by
        intro e
        have : ((2 : Nat) : ZMod p) = 0 := by exact_mod_cast e
        rw [ZMod.natCast_eq_zero_iff] at this
        exact hc.odd ((Nat.prime_dvd_prime_iff_eq hc.prime Nat.prime_two).1 this)
      have hy00 : y = 0 := (mul_eq_zero.1 hy0).resolve_left h2p
      have heq := ((c.W p).equation_iff x y).1 hy.1
      apply hroot x
      rw [hy00] at heq
      simp only at heq
      linear_combination -heq

end Curve
end PJC
