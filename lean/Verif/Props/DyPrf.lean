import Mathlib.Algebra.Polynomial.Eval.Degree
import Mathlib.Algebra.Polynomial.Div
import Mathlib.Algebra.Polynomial.BigOperators
import Verif.Props.ElGamalCpa
import Verif.Props.DyVrf
/-
C122: the values of the Dodis-Yampolskiy function at distinct messages look like independent random
points, unless the decisional Diffie-Hellman inversion problem of the curve can be solved.

Specification.  In the real game a random generator and a key are drawn and a spy is shown the
generator and what `Apply` returns; in the ideal game the spy is shown a random generator and
independent random points.  `ddhiReal` and `ddhiRand` are the probabilities that an algorithm
answers "yes" on `P, αP, ..., α^q P` together with `(1/α)P`, and together with a random point.
-/
set_option linter.unusedSectionVars false
namespace PJC.DyPrf
open PJC PJC.Props PJC.Prob PJC.Protocol Polynomial

variable {G : Type} [AddCommGroup G] [DecidableEq G]

/-! ### Specification -/

/-- A spy with coins in `C`, who is shown a generator and a list of points. -/
abbrev Spy (G C : Type) : Type := G → C → List G → Prop

/-- What the spy sees in the real game: `params` and `ped` are the other members of the object,
`opening` is the other part of the private key; `Apply` uses none of them. -/
def realView (E : EcGroup G) (params : VrfParams) (ped : Pedersen) (opening : Bytes) (ms : List Int)
    (gword kword : Nat) : Res (G × List G) := do
  let base ← E.getRandomGenerator gword
  let key ← E.generatePrivateKey kword
  let kb ← BN.toBytes key
  let σs ← Vrf.apply ⟨params, E, base, ped⟩ ms ⟨kb, opening⟩
  return (base, σs)

/-- The spy says yes. -/
def saysYes {C : Type} (A : Spy G C) (coins : C) : Res (G × List G) → Prop
  | .ok v => A v.1 coins v.2
  | _ => False

instance {C : Type} (A : Spy G C) [∀ b c l, Decidable (A b c l)] (coins : C) (r : Res (G × List G)) :
    Decidable (saysYes A coins r) := by
  unfold saysYes; split <;> infer_instance

/-- The probability that the spy says yes in the real game: generator, key and coins are uniform. -/
def realGame (E : EcGroup G) (params : VrfParams) (ped : Pedersen) (opening : Bytes) (ms : List Int)
    {C : Type} [Fintype C] (A : Spy G C) [∀ b c l, Decidable (A b c l)] : ℚ :=
  prob fun t : Draw E × Draw E × C =>
    saysYes A t.2.2 (realView E params ped opening ms t.2.1.val t.1.val)

/-- The probability that the spy says yes when it is shown `N` random points. -/
def idealGame (E : EcGroup G) (N : Nat) {C : Type} [Fintype C] (A : Spy G C)
    [∀ b c l, Decidable (A b c l)] : ℚ :=
  prob fun t : Draw E × (Fin N → Draw E) × C =>
    A (t.1.point E) t.2.2 (List.ofFn fun i => (t.2.1 i).point E)

/-- An algorithm that is given `q + 1` points and one more. -/
abbrev DdhiAlg (q : Nat) (G C : Type) : Type := (Fin (q + 1) → G) → G → C → Prop

/-- The inverse of a scalar modulo the order. -/
def invScalar (E : EcGroup G) (a : Draw E) : Int := (((a.scalar : ZMod E.order)⁻¹).val : Int)

/-- Probability of "yes" on `P, αP, ..., α^q P` and `(1/α) P`. -/
def ddhiReal (E : EcGroup G) (q : Nat) {C : Type} [Fintype C] (B : DdhiAlg q G C)
    [∀ P Z c, Decidable (B P Z c)] : ℚ :=
  prob fun t : Draw E × Draw E × C =>
    B (fun e => t.1.scalar ^ e.val • t.2.1.point E) (invScalar E t.1 • t.2.1.point E) t.2.2

/-- Probability of "yes" on `P, αP, ..., α^q P` and a random point. -/
def ddhiRand (E : EcGroup G) (q : Nat) {C : Type} [Fintype C] (B : DdhiAlg q G C)
    [∀ P Z c, Decidable (B P Z c)] : ℚ :=
  prob fun t : Draw E × Draw E × Draw E × C =>
    B (fun e => t.1.scalar ^ e.val • t.2.1.point E) (t.2.2.1.point E) t.2.2.2

/-- The advantage of an algorithm in the decisional Diffie-Hellman inversion problem. -/
def ddhiAdv (E : EcGroup G) (q : Nat) {C : Type} [Fintype C] (B : DdhiAlg q G C)
    [∀ P Z c, Decidable (B P Z c)] : ℚ := ddhiReal E q B - ddhiRand E q B

/-! ### The algorithm -/

section
variable (E : EcGroup G) {N : Nat}

/-- The point `f(α) P`, from the powers of `α`. -/
noncomputable def polyPoint {q : Nat} (f : (ZMod E.order)[X]) (P : Fin (q + 1) → G) : G :=
  ∑ e : Fin (q + 1), ((f.coeff e.val).val : Int) • P e

/-- The product of `X + m_l - m_j` over the messages after the `j`-th, without the `l`-th. -/
noncomputable def prodPoly (ms : Fin N → ZMod E.order) (j l : Fin N) : (ZMod E.order)[X] :=
  ∏ i ∈ (Finset.univ.filter fun i => j < i ∧ i ≠ l), (X + Polynomial.C (ms i - ms j))

/-- The algorithm for the `j`-th message: it shows the spy the generator `f(α) P`, where `f` has the
roots `m_j - m_l` for the later messages, random points for the messages before the `j`-th, and the
values with the key `α - m_j` at the later messages; that at the `j`-th is made with the last point.
It says no when that key is 0 or makes `Apply` fail. -/
noncomputable def prfAlg (ms : Fin N → ZMod E.order) {C : Type} (A : Spy G C) (j : Fin N) :
    DdhiAlg (N + 1) G ((Fin N → Draw E) × C) := fun P Z c =>
  polyPoint E (X - Polynomial.C (ms j)) P ≠ 0 ∧
  (∀ l, polyPoint E (X + Polynomial.C (ms l - ms j)) P ≠ 0) ∧
  A (polyPoint E (prodPoly E ms j j) P) c.2 (List.ofFn fun l =>
    if l < j then (c.1 l).point E
    else if l = j then polyPoint E (prodPoly E ms j j).divX P +
      (((prodPoly E ms j j).coeff 0).val : Int) • Z
    else polyPoint E (prodPoly E ms j l) P)

noncomputable instance (ms : Fin N → ZMod E.order) {C : Type} (A : Spy G C)
    [∀ b c l, Decidable (A b c l)] (j : Fin N) (P : Fin (N + 1 + 1) → G) (Z : G)
    (c : (Fin N → Draw E) × C) : Decidable (prfAlg E ms A j P Z c) := by
  unfold prfAlg; infer_instance

end

/-! ### Scalars modulo the order -/

section
variable {E : EcGroup G} {N : Nat} [hE : Fact E.Lawful]

instance : Fact E.order.Prime := ⟨hE.out.prime⟩

/-- The scalar of a draw, modulo the order. -/
def fld (d : Draw E) : ZMod E.order := (d.scalar : ZMod E.order)

/-- A multiple of the generator. -/
def pt (E : EcGroup G) (a : ZMod E.order) : G := (a.val : Int) • E.gen

theorem pt_cast (x : Int) : pt E (x : ZMod E.order) = x • E.gen := by
  unfold pt
  apply hE.out.zsmul_congr
  rw [← ZMod.intCast_eq_intCast_iff]
  simp

theorem pt_fld (d : Draw E) : pt E (fld d) = d.point E := pt_cast _

theorem pt_add (a b : ZMod E.order) : pt E (a + b) = pt E a + pt E b := by
  have ha : a = ((a.val : Int) : ZMod E.order) := by simp
  have hb : b = ((b.val : Int) : ZMod E.order) := by simp
  rw [ha, hb, ← Int.cast_add, pt_cast, pt_cast, pt_cast, add_zsmul]

theorem pt_smul (x : Int) (a : ZMod E.order) : x • pt E a = pt E ((x : ZMod E.order) * a) := by
  have ha : a = ((a.val : Int) : ZMod E.order) := by simp
  rw [ha, ← Int.cast_mul, pt_cast, pt_cast, mul_zsmul']
  rw [← mul_zsmul', mul_zsmul]

theorem pt_eq_zero {a : ZMod E.order} : pt E a = 0 ↔ a = 0 := by
  constructor
  · intro h
    by_contra ha
    refine hE.out.zsmul_ne ?_ hE.out.gen_ne h
    intro hd
    apply ha
    have := (ZMod.intCast_zmod_eq_zero_iff_dvd (a.val : Int) E.order).2 hd
    simpa using this
  · rintro rfl
    simp [pt]

theorem pt_sum {ι : Type} (s : Finset ι) (f : ι → ZMod E.order) :
    pt E (∑ i ∈ s, f i) = ∑ i ∈ s, pt E (f i) := by
  classical
  induction s using Finset.induction_on with
  | empty => simp [pt]
  | insert i s hi ih => rw [Finset.sum_insert hi, Finset.sum_insert hi, pt_add, ih]

theorem fld_ne (d : Draw E) : fld d ≠ 0 := by
  intro h
  have := (ZMod.intCast_zmod_eq_zero_iff_dvd _ E.order).1 h
  have h1 := Int.le_of_dvd (by unfold Draw.scalar; omega) this
  have := d.isLt
  unfold Draw.scalar at h1
  omega

theorem fld_inj : Function.Injective (fld (E := E)) := by
  intro d d' h
  have h1 := (ZMod.intCast_eq_intCast_iff _ _ _).1 h
  have := d.isLt
  have := d'.isLt
  apply Fin.ext
  have h2 := Int.emod_eq_of_lt (a := d.scalar) (b := E.order) (by unfold Draw.scalar; omega)
    (by unfold Draw.scalar; omega)
  have h3 := Int.emod_eq_of_lt (a := d'.scalar) (b := E.order) (by unfold Draw.scalar; omega)
    (by unfold Draw.scalar; omega)
  unfold Int.ModEq at h1
  rw [h2, h3] at h1
  unfold Draw.scalar at h1
  omega

theorem fld_surj {a : ZMod E.order} (ha : a ≠ 0) : ∃ d : Draw E, fld d = a := by
  have h1 : a.val ≠ 0 := fun h => ha ((ZMod.val_eq_zero a).1 h)
  have h2 := ZMod.val_lt a
  refine ⟨⟨a.val - 1, by omega⟩, ?_⟩
  have : (((a.val - 1 : Nat) : Int) + 1) = (a.val : Int) := by omega
  simp only [fld, Draw.scalar, this]
  simp

/-- The draws are the scalars other than 0. -/
theorem sum_draw (φ : ZMod E.order → ℚ) :
    ∑ d : Draw E, φ (fld d) = ∑ a : ZMod E.order, if a = 0 then 0 else φ a := by
  have e : (∑ a : ZMod E.order, if a = 0 then 0 else φ a) =
      ∑ a ∈ Finset.univ.filter (fun a : ZMod E.order => a ≠ 0), φ a := by
    rw [Finset.sum_filter]
    refine Finset.sum_congr rfl fun a _ => ?_
    by_cases h : a = 0 <;> simp [h]
  rw [e, ← Finset.sum_image (f := φ) (fun d _ d' _ h => fld_inj h)]
  apply Finset.sum_congr _ fun _ _ => rfl
  ext a
  simp only [Finset.mem_image, Finset.mem_univ, true_and, Finset.mem_filter]
  exact ⟨fun ⟨d, hd⟩ => hd ▸ fld_ne d, fld_surj⟩

/-- Multiplication of the draws by a scalar other than 0. -/
theorem mulDraw {u : ZMod E.order} (hu : u ≠ 0) : ∃ e : Draw E ≃ Draw E, ∀ d, fld (e d) = u * fld d := by
  choose f hf using fun d : Draw E => fld_surj (mul_ne_zero hu (fld_ne d))
  have inj : Function.Injective f := by
    intro d d' h
    apply fld_inj
    have := (hf d).symm.trans ((congrArg fld h).trans (hf d'))
    exact mul_left_cancel₀ hu this
  exact ⟨Equiv.ofBijective f (Finite.injective_iff_bijective.1 inj), hf⟩

instance : Nonempty (Draw E) := ⟨⟨0, by have := hE.out.prime.two_le; omega⟩⟩

theorem card_draw : (Fintype.card (Draw E) : ℚ) = (E.order - 1 : ℕ) := by simp

theorem order_pos' : (0 : ℚ) < (E.order - 1 : ℕ) := by
  have := hE.out.prime.two_le
  exact_mod_cast (by omega : 0 < E.order - 1)

/-! ### Polynomials in the exponent -/

theorem polyPoint_eval {q : Nat} {f : (ZMod E.order)[X]} (hf : f.natDegree < q + 1) (α : Draw E)
    (τ : Draw E) :
    polyPoint E f (fun e : Fin (q + 1) => α.scalar ^ e.val • τ.point E) =
      pt E (f.eval (fld α) * fld τ) := by
  unfold polyPoint
  have : ∀ e : Fin (q + 1), ((f.coeff e.val).val : Int) • α.scalar ^ e.val • τ.point E =
      pt E (f.coeff e.val * fld α ^ e.val * fld τ) := by
    intro e
    rw [← pt_fld, pt_smul, pt_smul]
    congr 1
    simp [fld, mul_assoc]
  rw [Finset.sum_congr rfl fun e _ => this e, ← pt_sum, ← Finset.sum_mul,
    Fin.sum_univ_eq_sum_range (fun e => f.coeff e * fld α ^ e), eval_eq_sum_range' hf]

theorem prodPoly_degree (ms : Fin N → ZMod E.order) (j l : Fin N) :
    (prodPoly E ms j l).natDegree ≤ N := by
  unfold prodPoly
  refine (natDegree_prod_le _ _).trans ((Finset.sum_le_card_nsmul _ _ 1 fun i _ => ?_).trans ?_)
  · exact (natDegree_X_add_C _).le
  · simpa using (Finset.card_filter_le _ _).trans_eq (Finset.card_univ (α := Fin N))

theorem prodPoly_eval (ms : Fin N → ZMod E.order) (j l : Fin N) (a : ZMod E.order) :
    (prodPoly E ms j l).eval a =
      ∏ i ∈ (Finset.univ.filter fun i => j < i ∧ i ≠ l), (a - ms j + ms i) := by
  unfold prodPoly
  rw [eval_prod]
  refine Finset.prod_congr rfl fun i _ => ?_
  simp only [eval_add, eval_X, eval_C]
  ring

/-- Division of the product by one factor. -/
theorem prodPoly_div (ms : Fin N → ZMod E.order) {j l : Fin N} (hl : j < l) (a : ZMod E.order)
    (h0 : a - ms j + ms l ≠ 0) :
    (prodPoly E ms j l).eval a = (prodPoly E ms j j).eval a / (a - ms j + ms l) := by
  rw [prodPoly_eval, prodPoly_eval, eq_div_iff h0, mul_comm]
  have : (Finset.univ.filter fun i => j < i ∧ i ≠ j) =
      insert l (Finset.univ.filter fun i => j < i ∧ i ≠ l) := by
    ext i
    simp only [Finset.mem_filter, Finset.mem_univ, true_and, Finset.mem_insert]
    constructor
    · rintro ⟨h1, -⟩
      by_cases h : i = l
      · exact Or.inl h
      · exact Or.inr ⟨h1, h⟩
    · rintro (rfl | ⟨h1, -⟩)
      · exact ⟨hl, hl.ne'⟩
      · exact ⟨h1, h1.ne'⟩
  rw [this, Finset.prod_insert (by simp)]

/-- Division of the product by `X`, with its remainder. -/
theorem prodPoly_divX (f : (ZMod E.order)[X]) {a : ZMod E.order} (ha : a ≠ 0) :
    f.divX.eval a + f.coeff 0 * a⁻¹ = f.eval a / a := by
  have := congrArg (eval a) (divX_mul_X_add f)
  simp only [eval_add, eval_mul, eval_X, eval_C] at this
  rw [← this]
  field_simp

/-! ### Hybrids -/

/-- The key is not 0 and `Apply` succeeds with it. -/
def Good (ms : Fin N → ZMod E.order) (k : ZMod E.order) : Prop := k ≠ 0 ∧ ∀ l, k + ms l ≠ 0

instance (ms : Fin N → ZMod E.order) (k : ZMod E.order) : Decidable (Good ms k) := by
  unfold Good; infer_instance

/-- What the spy is shown when the first `i` values are replaced by random points. -/
def shown (ms : Fin N → ZMod E.order) (i : Nat) (k : ZMod E.order) (t : ZMod E.order)
    (zs : Fin N → Draw E) : List G :=
  List.ofFn fun l => if l.val < i then (zs l).point E else pt E (t / (k + ms l))

variable {C : Type} [Fintype C] (A : Spy G C) [∀ b c l, Decidable (A b c l)]

/-- The probability of yes with a given key. -/
def withKey (ms : Fin N → ZMod E.order) (i : Nat) (k : ZMod E.order) : ℚ :=
  if Good ms k then prob fun u : Draw E × (Fin N → Draw E) × C =>
    A (u.1.point E) u.2.2 (shown ms i k (fld u.1) u.2.1) else 0

/-- The `i`-th hybrid. -/
def hyb (ms : Fin N → ZMod E.order) (i : Nat) : ℚ :=
  (∑ k : ZMod E.order, withKey A ms i k) / (E.order - 1 : ℕ)

/-- The messages as scalars. -/
def scalars (E : EcGroup G) (ms : List Int) (l : Fin ms.length) : ZMod E.order :=
  ((ms.get l : Int) : ZMod E.order)

theorem applyOne_good (params : VrfParams) (ped : Pedersen) (base : G) {k m : Int}
    (h : (k : ZMod E.order) + (m : ZMod E.order) ≠ 0) (t : ZMod E.order) (hb : base = pt E t) :
    Vrf.applyOne ⟨params, E, base, ped⟩ k m =
      .ok (pt E (t / ((k : ZMod E.order) + (m : ZMod E.order)))) := by
  have hp := hE.out.prime
  have hpos : (0 : Int) < E.order := by exact_mod_cast hp.pos
  have hd : ¬ (E.order : Int) ∣ m + k := by
    intro hd
    apply h
    have := (ZMod.intCast_zmod_eq_zero_iff_dvd (m + k) E.order).2 hd
    push_cast at this
    rw [add_comm]
    exact this
  have hg : Int.gcd (m + k) E.order = 1 := by
    rw [Int.gcd_comm]
    rcases (Nat.coprime_or_dvd_of_prime hp (m + k).natAbs) with h1 | h1
    · simpa [Int.gcd] using h1
    · exact absurd (Int.natCast_dvd.2 h1) hd
  obtain ⟨h1, -, -⟩ := BN.inv_spec hpos hg
  unfold Vrf.applyOne
  rw [BN.modInverse_ok hpos hg]
  simp only [Res.ok_bind, Res.pure_eq, Res.ok.injEq]
  rw [hb, pt_smul]
  congr 1
  have h2 := (ZMod.intCast_eq_intCast_iff _ _ _).2 h1
  push_cast at h2
  rw [eq_div_iff h, mul_right_comm, add_comm (k : ZMod E.order), mul_comm _ ((m : ZMod E.order) + _),
    h2, one_mul]

theorem applyOne_bad (params : VrfParams) (ped : Pedersen) (base : G) {k m : Int}
    (h : (k : ZMod E.order) + (m : ZMod E.order) = 0) (σ : G) :
    Vrf.applyOne ⟨params, E, base, ped⟩ k m ≠ .ok σ := by
  intro ho
  unfold Vrf.applyOne at ho
  simp only [Res.bind_eq_ok] at ho
  obtain ⟨r, hr, -⟩ := ho
  obtain ⟨-, -, h1, -⟩ := BN.modInverse_eq_ok hr
  have h2 := (ZMod.intCast_eq_intCast_iff _ _ _).2 h1
  push_cast at h2
  rw [add_comm (m : ZMod E.order), h, zero_mul] at h2
  exact zero_ne_one h2

/-- The real game in terms of scalars. -/
theorem realView_spec (params : VrfParams) (ped : Pedersen) (opening : Bytes) (ms : List Int)
    (k t : Draw E) (zs : Fin ms.length → Draw E) (c : C) :
    saysYes A c (realView E params ped opening ms t.val k.val) ↔
      Good (scalars E ms) (fld k) ∧ A (t.point E) c (shown (scalars E ms) 0 (fld k) (fld t) zs) := by
  have hb : E.getRandomGenerator t.val = .ok (t.point E) := by
    have := Cpa.generatePrivateKey_draw hE.out t
    unfold EcGroup.generatePrivateKey at this
    unfold EcGroup.getRandomGenerator
    rw [this]
    rfl
  have hk : 0 ≤ k.scalar := by unfold Draw.scalar; omega
  obtain ⟨kb, hkb, hkb'⟩ : ∃ bs, BN.toBytes k.scalar = .ok bs ∧ BN.ofBytes bs = k.scalar :=
    toBytes_parse hk
  have hv : realView E params ped opening ms t.val k.val =
      (ms.mapM (Vrf.applyOne ⟨params, E, t.point E, ped⟩ k.scalar) >>= fun σs =>
        Res.ok (t.point E, σs)) := by
    unfold realView
    rw [hb, Res.ok_bind, Cpa.generatePrivateKey_draw hE.out, Res.ok_bind, hkb, Res.ok_bind]
    unfold Vrf.apply
    rw [hkb']
    rfl
  rw [hv]
  by_cases hg : Good (scalars E ms) (fld k)
  · have hm : ms.mapM (Vrf.applyOne ⟨params, E, t.point E, ped⟩ k.scalar) =
        .ok (shown (scalars E ms) 0 (fld k) (fld t) zs) := by
      rw [Cs.mapM_ok_iff, List.forall₂_iff_get]
      refine ⟨by simp [shown], fun i h1 h2 => ?_⟩
      have := hg.2 ⟨i, h1⟩
      rw [applyOne_good params ped (t.point E) (by exact this) (fld t) (pt_fld t).symm]
      simp [shown, scalars, fld]
    rw [hm, Res.ok_bind]
    exact ⟨fun h => ⟨hg, h⟩, fun h => h.2⟩
  · refine ⟨fun h => ?_, fun h => absurd h.1 hg⟩
    exfalso
    obtain ⟨l, hl⟩ : ∃ l, fld k + scalars E ms l = 0 := by
      by_contra hc
      push Not at hc
      exact hg ⟨fld_ne k, hc⟩
    cases hr : ms.mapM (Vrf.applyOne ⟨params, E, t.point E, ped⟩ k.scalar) with
    | ok σs =>
      rw [Cs.mapM_ok_iff, List.forall₂_iff_get] at hr
      exact applyOne_bad params ped (t.point E) (by exact hl) _ (hr.2 l.val l.isLt (hr.1 ▸ l.isLt))
    | _ => rw [hr] at h; exact h

theorem prob_and (Q : Prop) [Decidable Q] {α : Type} [Fintype α] (S : α → Prop) [DecidablePred S] :
    prob (fun a => Q ∧ S a) = if Q then prob S else 0 := by
  by_cases h : Q
  · rw [if_pos h]
    exact prob_congr fun a => by simp [h]
  · rw [if_neg h]
    unfold prob
    simp [h]

theorem real_hyb (params : VrfParams) (ped : Pedersen) (opening : Bytes) (ms : List Int) :
    realGame E params ped opening ms A = hyb A (scalars E ms) 0 := by
  have zs0 : Fin ms.length → Draw E := fun _ => Classical.arbitrary _
  unfold realGame hyb
  rw [prob_prod (fun (k : Draw E) (u : Draw E × C) =>
    saysYes A u.2 (realView E params ped opening ms u.1.val k.val)), card_draw]
  congr 1
  have e : ∀ k : Draw E, prob (fun u : Draw E × C =>
      saysYes A u.2 (realView E params ped opening ms u.1.val k.val)) =
      withKey A (scalars E ms) 0 (fld k) := by
    intro k
    rw [prob_congr fun u : Draw E × C => realView_spec A params ped opening ms k u.1 zs0 u.2,
      prob_and]
    unfold withKey
    congr 1
    rw [← prob_fst (β := Fin ms.length → Draw E), ← prob_equiv (⟨fun t => ((t.1, t.2.2), t.2.1),
      fun t => (t.1.1, t.2, t.1.2), fun _ => rfl, fun _ => rfl⟩ :
        (Draw E × (Fin ms.length → Draw E) × C) ≃ ((Draw E × C) × (Fin ms.length → Draw E)))]
    apply prob_congr
    intro u
    simp [shown]
  rw [Finset.sum_congr rfl fun k _ => e k, sum_draw]
  refine Finset.sum_congr rfl fun k _ => ?_
  split_ifs with h
  · rw [withKey, if_neg (fun hg => hg.1 h)]
  · rfl

/-- Summing over the draws of another scalar. -/
theorem hyb_shift (ms : Fin N → ZMod E.order) (i : Nat) (j : Fin N) :
    hyb A ms i = (∑ α : Draw E, withKey A ms i (fld α - ms j)) / (E.order - 1 : ℕ) := by
  unfold hyb
  congr 1
  rw [sum_draw fun a => withKey A ms i (a - ms j), ← Equiv.sum_comp (Equiv.subRight (ms j))]
  refine Finset.sum_congr rfl fun a _ => ?_
  split_ifs with h
  · rw [withKey, if_neg]
    intro hg
    exact hg.2 j (by simp [h])
  · rfl

/-- What the algorithm asks the spy. -/
theorem prfAlg_iff (ms : Fin N → ZMod E.order) (j : Fin N) (α τ : Draw E) (Z : G)
    (zs : Fin N → Draw E) (c : C) :
    prfAlg E ms A j (fun e => α.scalar ^ e.val • τ.point E) Z (zs, c) ↔
      Good ms (fld α - ms j) ∧
      A (pt E ((prodPoly E ms j j).eval (fld α) * fld τ)) c (List.ofFn fun l =>
        if l < j then (zs l).point E
        else if l = j then pt E ((prodPoly E ms j j).divX.eval (fld α) * fld τ) +
          (((prodPoly E ms j j).coeff 0).val : Int) • Z
        else pt E ((prodPoly E ms j j).eval (fld α) * fld τ / (fld α - ms j + ms l))) := by
  have hN : 0 < N := j.pos
  have d1 : (X - Polynomial.C (ms j)).natDegree < N + 1 + 1 := by rw [natDegree_X_sub_C]; omega
  have d2 : ∀ l, (X + Polynomial.C (ms l - ms j)).natDegree < N + 1 + 1 := fun l => by
    rw [natDegree_X_add_C]; omega
  have d3 : ∀ l, (prodPoly E ms j l).natDegree < N + 1 + 1 := fun l => by
    have := prodPoly_degree ms j l; omega
  have d4 : (prodPoly E ms j j).divX.natDegree < N + 1 + 1 := by
    have := prodPoly_degree ms j j
    have := natDegree_divX_le (p := prodPoly E ms j j)
    omega
  have hτ := fld_ne τ
  have hgood : (polyPoint E (X - Polynomial.C (ms j)) (fun e : Fin (N + 1 + 1) => α.scalar ^ e.val • τ.point E) ≠ 0 ∧
      ∀ l, polyPoint E (X + Polynomial.C (ms l - ms j)) (fun e : Fin (N + 1 + 1) => α.scalar ^ e.val • τ.point E) ≠ 0)
      ↔ Good ms (fld α - ms j) := by
    unfold Good
    apply and_congr
    · rw [polyPoint_eval d1, Ne, pt_eq_zero]
      simp [hτ]
    · refine forall_congr' fun l => ?_
      rw [polyPoint_eval (d2 l), Ne, pt_eq_zero]
      have : (X + Polynomial.C (ms l - ms j)).eval (fld α) = fld α - ms j + ms l := by
        simp only [eval_add, eval_X, eval_C]; ring
      rw [this]
      simp [hτ]
  unfold prfAlg
  rw [← and_assoc, hgood]
  refine and_congr_right fun hg => ?_
  rw [polyPoint_eval (d3 j), polyPoint_eval d4]
  apply iff_of_eq
  congr 2
  funext l
  by_cases h1 : l < j
  · simp [h1]
  · by_cases h2 : l = j
    · simp [h2]
    · simp only [h1, h2, if_false]
      rw [polyPoint_eval (d3 l), prodPoly_div ms (lt_of_le_of_ne (not_lt.1 h1) (Ne.symm h2)) _ (hg.2 l)]
      congr 1
      ring

theorem prodPoly_ne (ms : Fin N → ZMod E.order) (j : Fin N) {a : ZMod E.order}
    (hg : Good ms (a - ms j)) : (prodPoly E ms j j).eval a ≠ 0 := by
  rw [prodPoly_eval, Finset.prod_ne_zero_iff]
  exact fun i _ => hg.2 i

theorem prodPoly_zero {ms : Fin N → ZMod E.order} (hms : Function.Injective ms) (j : Fin N) :
    (prodPoly E ms j j).coeff 0 ≠ 0 := by
  rw [coeff_zero_eq_eval_zero, prodPoly_eval, Finset.prod_ne_zero_iff]
  intro i hi h
  have : ms i = ms j := by
    rw [zero_sub, neg_add_eq_zero] at h
    exact h.symm
  exact (Finset.mem_filter.1 hi).2.2 (hms this)

/-- An inversion problem makes the algorithm play a hybrid. -/
theorem prfAlg_real (ms : Fin N → ZMod E.order) (j : Fin N) :
    ddhiReal E (N + 1) (prfAlg E ms A j) = hyb A ms j.val := by
  unfold ddhiReal
  rw [prob_prod (fun (α : Draw E) (u : Draw E × (Fin N → Draw E) × C) =>
    prfAlg E ms A j (fun e => α.scalar ^ e.val • u.1.point E) (invScalar E α • u.1.point E) u.2),
    card_draw, hyb_shift A ms j.val j]
  congr 1
  refine Finset.sum_congr rfl fun α _ => ?_
  rw [prob_congr fun u : Draw E × (Fin N → Draw E) × C => prfAlg_iff A ms j α u.1
    (invScalar E α • u.1.point E) u.2.1 u.2.2, prob_and]
  unfold withKey
  by_cases hg : Good ms (fld α - ms j)
  · rw [if_pos hg, if_pos hg]
    obtain ⟨e, he⟩ := mulDraw (prodPoly_ne ms j hg)
    rw [← prob_equiv (Equiv.prodCongr e (Equiv.refl ((Fin N → Draw E) × C)))
      (fun u : Draw E × (Fin N → Draw E) × C =>
        A (u.1.point E) u.2.2 (shown ms j.val (fld α - ms j) (fld u.1) u.2.1))]
    apply prob_congr
    rintro ⟨τ, zs, c⟩
    simp only [Equiv.prodCongr_apply, Prod.map_apply, Equiv.refl_apply, ← pt_fld (e τ), he]
    apply iff_of_eq
    congr 1
    unfold shown
    congr 1
    funext l
    by_cases h1 : l < j
    · have : l.val < j.val := h1
      simp [h1]
    · have h1' : ¬ l.val < j.val := h1
      by_cases h2 : l = j
      · subst h2
        simp only [lt_irrefl, if_false, if_true]
        have ha := fld_ne α
        rw [← pt_fld τ, pt_smul, pt_smul, ← pt_add]
        have hi : ((invScalar E α : Int) : ZMod E.order) = (fld α)⁻¹ := by
          simp [invScalar, fld]
        have := prodPoly_divX (prodPoly E ms l l) ha
        congr 1
        rw [hi, sub_add_cancel]
        rw [show ((((prodPoly E ms l l).coeff 0).val : Int) : ZMod E.order) =
          (prodPoly E ms l l).coeff 0 by simp]
        calc _ = ((prodPoly E ms l l).divX.eval (fld α) + (prodPoly E ms l l).coeff 0 * (fld α)⁻¹) *
              fld τ := by ring
          _ = _ := by rw [this]; ring
      · simp [h1, h2]
  · rw [if_neg hg, if_neg hg]

/-- A draw through an affine map is nearly a draw. -/
theorem affine_close (S : ZMod E.order → Prop) [DecidablePred S] (x : ZMod E.order)
    {y : ZMod E.order} (hy : y ≠ 0) :
    |prob (fun ζ : Draw E => S (x + y * fld ζ)) - prob (fun ζ : Draw E => S (fld ζ))| ≤
      1 / (E.order - 1 : ℕ) := by
  have cnt : ∀ T : ZMod E.order → Prop, ∀ _ : DecidablePred T, prob (fun ζ : Draw E => T (fld ζ)) =
      ((∑ a : ZMod E.order, if T a then (1 : ℚ) else 0) - if T 0 then 1 else 0) /
        (E.order - 1 : ℕ) := by
    intro T _
    unfold prob
    rw [card_draw, ← Finset.sum_boole, sum_draw fun a => if T a then (1 : ℚ) else 0]
    congr 1
    rw [← Finset.sum_erase_add _ _ (Finset.mem_univ (0 : ZMod E.order)),
      ← Finset.sum_erase_add _ (fun a => if T a then (1 : ℚ) else 0)
        (Finset.mem_univ (0 : ZMod E.order))]
    simp only [if_true, add_zero, add_sub_cancel_right]
    refine Finset.sum_congr rfl fun a ha => ?_
    rw [if_neg (Finset.ne_of_mem_erase ha)]
  rw [cnt (fun a => S (x + y * a)) inferInstance, cnt S inferInstance]
  have e : (∑ a : ZMod E.order, if S (x + y * a) then (1 : ℚ) else 0) =
      ∑ a : ZMod E.order, if S a then (1 : ℚ) else 0 :=
    Equiv.sum_comp ((Equiv.mulLeft₀ y hy).trans (Equiv.addLeft x)) fun a => if S a then (1 : ℚ) else 0
  rw [e, ← sub_div, abs_div, abs_of_pos (order_pos' (E := E))]
  apply div_le_div_of_nonneg_right _ (order_pos' (E := E)).le
  split_ifs <;> simp

/-- With a random point the `j`-th value is nearly a random point. -/
theorem prfAlg_rand [Nonempty C] {ms : Fin N → ZMod E.order} (hms : Function.Injective ms)
    (j : Fin N) :
    |ddhiRand E (N + 1) (prfAlg E ms A j) - hyb A ms (j.val + 1)| ≤ 1 / (E.order - 1 : ℕ) := by
  have hpos := order_pos' (E := E)
  unfold ddhiRand
  rw [prob_prod (fun (α : Draw E) (u : Draw E × Draw E × (Fin N → Draw E) × C) =>
    prfAlg E ms A j (fun e => α.scalar ^ e.val • u.1.point E) (u.2.1.point E) u.2.2),
    card_draw, hyb_shift A ms (j.val + 1) j, ← sub_div, ← Finset.sum_sub_distrib, abs_div,
    abs_of_pos hpos]
  apply div_le_div_of_nonneg_right _ hpos.le
  have each : ∀ α : Draw E, |prob (fun u : Draw E × Draw E × (Fin N → Draw E) × C =>
      prfAlg E ms A j (fun e => α.scalar ^ e.val • u.1.point E) (u.2.1.point E) u.2.2) -
      withKey A ms (j.val + 1) (fld α - ms j)| ≤ 1 / (E.order - 1 : ℕ) := by
    intro α
    rw [prob_congr fun u : Draw E × Draw E × (Fin N → Draw E) × C => prfAlg_iff A ms j α u.1
      (u.2.1.point E) u.2.2.1 u.2.2.2, prob_and]
    unfold withKey
    by_cases hg : Good ms (fld α - ms j)
    · rw [if_pos hg, if_pos hg]
      obtain ⟨e, he⟩ := mulDraw (prodPoly_ne ms j hg)
      have r1 : prob (fun u : Draw E × (Fin N → Draw E) × C =>
          A (u.1.point E) u.2.2 (shown ms (j.val + 1) (fld α - ms j) (fld u.1) u.2.1)) =
          prob (fun w : (Draw E × (Fin N → Draw E) × C) × Draw E =>
            A ((e w.1.1).point E) w.1.2.2 (shown ms (j.val + 1) (fld α - ms j) (fld (e w.1.1))
              (Function.update w.1.2.1 j w.2))) := by
        let e' : ((Draw E × (Fin N → Draw E) × C) × Draw E) ≃
            ((Draw E × (Fin N → Draw E) × C) × Draw E) :=
          { toFun := fun w => ((e w.1.1, Function.update w.1.2.1 j w.2, w.1.2.2), w.1.2.1 j)
            invFun := fun w => ((e.symm w.1.1, Function.update w.1.2.1 j w.2, w.1.2.2), w.1.2.1 j)
            left_inv := fun w => by simp
            right_inv := fun w => by simp }
        rw [← prob_fst (β := Draw E), ← prob_equiv e']
        rfl
      have r2 : prob (fun u : Draw E × Draw E × (Fin N → Draw E) × C =>
          A (pt E ((prodPoly E ms j j).eval (fld α) * fld u.1)) u.2.2.2 (List.ofFn fun l =>
            if l < j then (u.2.2.1 l).point E
            else if l = j then pt E ((prodPoly E ms j j).divX.eval (fld α) * fld u.1) +
              (((prodPoly E ms j j).coeff 0).val : Int) • u.2.1.point E
            else pt E ((prodPoly E ms j j).eval (fld α) * fld u.1 / (fld α - ms j + ms l)))) =
          prob (fun w : (Draw E × (Fin N → Draw E) × C) × Draw E =>
          A (pt E ((prodPoly E ms j j).eval (fld α) * fld w.1.1)) w.1.2.2 (List.ofFn fun l =>
            if l < j then (w.1.2.1 l).point E
            else if l = j then pt E ((prodPoly E ms j j).divX.eval (fld α) * fld w.1.1) +
              (((prodPoly E ms j j).coeff 0).val : Int) • w.2.point E
            else pt E ((prodPoly E ms j j).eval (fld α) * fld w.1.1 / (fld α - ms j + ms l)))) := by
        rw [← prob_equiv (⟨fun w => (w.1.1, w.2, w.1.2.1, w.1.2.2), fun w =>
          ((w.1, w.2.2.1, w.2.2.2), w.2.1), fun _ => rfl, fun _ => rfl⟩ :
          ((Draw E × (Fin N → Draw E) × C) × Draw E) ≃ (Draw E × Draw E × (Fin N → Draw E) × C))]
        rfl
      rw [r1, r2]
      refine prob_prod_close (x := 1 / (E.order - 1 : ℕ))
        (S := fun (w : Draw E × (Fin N → Draw E) × C) (ζ : Draw E) =>
          A (pt E ((prodPoly E ms j j).eval (fld α) * fld w.1)) w.2.2 (List.ofFn fun l =>
            if l < j then (w.2.1 l).point E
            else if l = j then pt E ((prodPoly E ms j j).divX.eval (fld α) * fld w.1) +
              (((prodPoly E ms j j).coeff 0).val : Int) • ζ.point E
            else pt E ((prodPoly E ms j j).eval (fld α) * fld w.1 / (fld α - ms j + ms l))))
        (T := fun (w : Draw E × (Fin N → Draw E) × C) (ζ : Draw E) =>
          A ((e w.1).point E) w.2.2 (shown ms (j.val + 1) (fld α - ms j) (fld (e w.1))
              (Function.update w.2.1 j ζ))) (by positivity) ?_
      rintro ⟨τ, zs, c⟩
      have := affine_close (fun P => A (pt E ((prodPoly E ms j j).eval (fld α) * fld τ)) c
        (List.ofFn fun l => if l < j then (zs l).point E else if l = j then pt E P
          else pt E ((prodPoly E ms j j).eval (fld α) * fld τ / (fld α - ms j + ms l))))
        ((prodPoly E ms j j).divX.eval (fld α) * fld τ) (prodPoly_zero hms j)
      refine le_of_eq_of_le ?_ this
      congr 2
      · apply prob_congr
        intro ζ
        apply iff_of_eq
        congr 2
        funext l
        split_ifs
        · rfl
        · rw [pt_add, ← pt_fld, pt_smul]
          simp
        · rfl
      · apply prob_congr
        intro ζ
        simp only [← pt_fld (e τ), he]
        apply iff_of_eq
        congr 1
        unfold shown
        congr 1
        funext l
        by_cases h2 : l = j
        · subst h2
          simp [pt_fld]
        · have hv : l.val ≠ j.val := fun h => h2 (Fin.ext h)
          by_cases h1 : l < j
          · have : l.val < j.val + 1 := by have : l.val < j.val := h1; omega
            simp [h1, this, h2]
          · have : ¬ l.val < j.val + 1 := by have : ¬ l.val < j.val := h1; omega
            simp [h1, this, h2]
    · rw [if_neg hg, if_neg hg, sub_zero, abs_zero]
      positivity
  refine (Finset.abs_sum_le_sum_abs _ _).trans ((Finset.sum_le_sum fun α _ => each α).trans ?_)
  rw [Finset.sum_const, Finset.card_univ, nsmul_eq_mul, card_draw, mul_one_div, div_self hpos.ne']

/-- The last hybrid is the ideal game, unless the key makes `Apply` fail. -/
theorem hyb_ideal [Nonempty C] (ms : Fin N → ZMod E.order) :
    |hyb A ms N - idealGame E N A| ≤ N / (E.order - 1 : ℕ) := by
  have hpos := order_pos' (E := E)
  have r1 : hyb A ms N = prob (fun u : Draw E × (Draw E × (Fin N → Draw E) × C) =>
      Good ms (fld u.1) ∧ A (u.2.1.point E) u.2.2.2 (List.ofFn fun i => (u.2.2.1 i).point E)) := by
    rw [prob_prod (fun (k : Draw E) (u : Draw E × (Fin N → Draw E) × C) =>
      Good ms (fld k) ∧ A (u.1.point E) u.2.2 (List.ofFn fun i => (u.2.1 i).point E)), card_draw]
    unfold hyb
    congr 1
    rw [Finset.sum_congr rfl fun k _ => prob_and (Good ms (fld k)) _,
      sum_draw fun k => if Good ms k then prob (fun u : Draw E × (Fin N → Draw E) × C =>
        A (u.1.point E) u.2.2 (List.ofFn fun i => (u.2.1 i).point E)) else 0]
    refine Finset.sum_congr rfl fun k _ => ?_
    unfold withKey
    by_cases h : k = 0
    · rw [if_pos h, if_neg fun hg => hg.1 h]
    · rw [if_neg h]
      congr 1
      apply prob_congr
      intro u
      simp [shown]
  have r2 : idealGame E N A = prob (fun u : Draw E × (Draw E × (Fin N → Draw E) × C) =>
      A (u.2.1.point E) u.2.2.2 (List.ofFn fun i => (u.2.2.1 i).point E)) := by
    unfold idealGame
    rw [← prob_snd (α := Draw E)]
  rw [r1, r2]
  refine (prob_diff_le (B := fun u : Draw E × (Draw E × (Fin N → Draw E) × C) =>
    ¬ Good ms (fld u.1)) fun u hu => ?_).trans ?_
  · rw [not_not] at hu
    simp [hu]
  · rw [prob_fst (β := Draw E × (Fin N → Draw E) × C) fun k : Draw E => ¬ Good ms (fld k)]
    refine (prob_exists_le Finset.univ (fun (l : Fin N) (k : Draw E) => fld k + ms l = 0) _
      fun k hk => ?_).trans ?_
    · by_contra hc
      push Not at hc
      exact hk ⟨fld_ne k, fun l => hc l (Finset.mem_univ l)⟩
    · have one : ∀ l : Fin N, prob (fun k : Draw E => fld k + ms l = 0) ≤ 1 / (E.order - 1 : ℕ) := by
        intro l
        unfold prob
        rw [card_draw]
        apply div_le_div_of_nonneg_right _ hpos.le
        have : (Finset.univ.filter fun k : Draw E => fld k + ms l = 0).card ≤ 1 := by
          rw [Finset.card_le_one]
          intro a ha b hb
          simp only [Finset.mem_filter, Finset.mem_univ, true_and] at ha hb
          apply fld_inj
          rw [eq_neg_of_add_eq_zero_left ha, eq_neg_of_add_eq_zero_left hb]
        exact_mod_cast this
      refine (Finset.sum_le_sum fun l _ => one l).trans_eq ?_
      rw [Finset.sum_const, Finset.card_univ, Fintype.card_fin, nsmul_eq_mul, mul_one_div]

/-- From the real to the ideal game. -/
theorem real_ideal [Nonempty C] (params : VrfParams) (ped : Pedersen) (opening : Bytes)
    (ms : List Int) (hms : Function.Injective (scalars E ms)) :
    |realGame E params ped opening ms A - idealGame E ms.length A| ≤
      ∑ j : Fin ms.length, (|ddhiAdv E (ms.length + 1) (prfAlg E (scalars E ms) A j)| +
        1 / (E.order - 1 : ℕ)) + ms.length / (E.order - 1 : ℕ) := by
  rw [real_hyb]
  have tel : hyb A (scalars E ms) 0 - hyb A (scalars E ms) ms.length =
      ∑ j : Fin ms.length, (hyb A (scalars E ms) j.val - hyb A (scalars E ms) (j.val + 1)) := by
    have : ∀ k, hyb A (scalars E ms) 0 - hyb A (scalars E ms) k =
        ∑ j ∈ Finset.range k, (hyb A (scalars E ms) j - hyb A (scalars E ms) (j + 1)) := by
      intro k
      rw [Finset.sum_range_sub']
    rw [this ms.length, Finset.sum_range]
  refine (abs_sub_le _ (hyb A (scalars E ms) ms.length) _).trans
    (add_le_add ?_ (hyb_ideal A (scalars E ms)))
  rw [tel]
  refine (Finset.abs_sum_le_sum_abs _ _).trans (Finset.sum_le_sum fun j _ => ?_)
  have r := prfAlg_rand A hms j
  rw [← prfAlg_real]
  refine (abs_sub_le _ (ddhiRand E (ms.length + 1) (prfAlg E (scalars E ms) A j)) _).trans
    (add_le_add le_rfl r)

end

/-! ### C122 -/

/-- **C122**.  For messages that are distinct modulo the order, what a spy says about a random
generator and the values there differs from what it says about independent random points by at most
the inversion advantages of one algorithm for each message, written out above, and `2 / (order - 1)`
for each message. -/
theorem C122_pseudorandom (E : EcGroup G) (hE : E.Lawful) (params : VrfParams) (ped : Pedersen)
    (opening : Bytes) (ms : List Int)
    (hms : ∀ i j : Fin ms.length, ms.get i ≡ ms.get j [ZMOD E.order] → i = j)
    {C : Type} [Fintype C] [Nonempty C] (A : Spy G C) [∀ b c l, Decidable (A b c l)] :
    |realGame E params ped opening ms A - idealGame E ms.length A| ≤
      ∑ j : Fin ms.length, (|ddhiAdv E (ms.length + 1) (prfAlg E (scalars E ms) A j)| +
        2 / (E.order - 1 : ℕ)) := by
  have := Fact.mk hE
  have h := real_ideal (E := E) A params ped opening ms fun i j hij =>
    hms i j ((ZMod.intCast_eq_intCast_iff _ _ _).1 hij)
  refine h.trans_eq ?_
  rw [Finset.sum_add_distrib, Finset.sum_add_distrib, Finset.sum_const, Finset.sum_const,
    Finset.card_univ, Fintype.card_fin, nsmul_eq_mul, nsmul_eq_mul]
  ring

/-- **C122 on the NIST curves**: nothing is assumed of the group. -/
theorem C122_nist {c : Curve} {q : Nat} {gx gy : Int} (h : Curve.Named c q gx gy) [Fact q.Prime]
    (H : Hashes) (sqrt : BigNum → BigNum → Res BigNum) (fuel : Nat)
    (sswu : Bytes → Bytes → Res (c.W q).Point) (params : VrfParams) (ped : Pedersen)
    (opening : Bytes) (ms : List Int) {C : Type} [Fintype C] [Nonempty C]
    (A : Spy (c.W q).Point C) [∀ b c l, Decidable (A b c l)] :
    let E := c.toEcGroup q (c.basePoint q gx gy) H sqrt fuel sswu
    (∀ i j : Fin ms.length, ms.get i ≡ ms.get j [ZMOD E.order] → i = j) →
    |realGame E params ped opening ms A - idealGame E ms.length A| ≤
      ∑ j : Fin ms.length, (|ddhiAdv E (ms.length + 1) (prfAlg E (scalars E ms) A j)| +
        2 / (E.order - 1 : ℕ)) := fun hms =>
  C122_pseudorandom _ (Curve.C111_lawful h H sqrt fuel sswu) params ped opening ms hms A

/-- **C122, negation for messages that agree modulo the order**.  Different messages can have the
same value with every key: `Apply` does not refuse messages from the order upwards. -/
theorem C122_range_fails (v : DyVrf G) (sk : VrfPrivateKey) (m : Int) :
    Vrf.apply v [m + v.group.order] sk = Vrf.apply v [m] sk := by
  have h : ∀ k : Int, BN.modInverse (m + v.group.order + k) v.group.order =
      BN.modInverse (m + k) v.group.order := by
    intro k
    have e : m + (v.group.order : Int) + k = m + k + v.group.order := by ring
    rw [e]
    unfold BN.modInverse
    have hg : Int.gcd (m + k + v.group.order) v.group.order = Int.gcd (m + k) v.group.order := by
      simp
    have hi : BN.inv (m + k + v.group.order) v.group.order = BN.inv (m + k) v.group.order := by
      unfold BN.inv
      simp
    rw [hg, hi]
  simp only [Vrf.apply, List.mapM_cons, List.mapM_nil, Vrf.applyOne, h]

/-! ### Examples -/

/-- A spy on the toy group of order 11. -/
def toySpy : Spy (ZMod 11) (Fin 3) := fun b c l => l.map (fun σ : ZMod 11 => σ + (c.val : ZMod 11)) = [b, 0]

instance : ∀ b c l, Decidable (toySpy b c l) := fun _ _ _ => by unfold toySpy; infer_instance

example (params : VrfParams) (ped : Pedersen) := C122_pseudorandom toyEc toyEc_lawful params ped []
  [3, 18] (by decide) toySpy

/-- The bound is not met by everybody: who divides in the toy group tells the games apart. -/
def toyBreaker : Spy (ZMod 11) Unit := fun b _ l =>
  match l with
  | [x, y] => b * (x - y) = x * y
  | _ => False

instance : ∀ b c l, Decidable (toyBreaker b c l) := fun _ _ l => by
  unfold toyBreaker; split <;> infer_instance

/-- Some parameters. -/
def toyParams : VrfParams := ⟨1, 1, [], [], ⟨[], [], []⟩⟩

/-- Some parameters. -/
def toyPed : Pedersen := ⟨[], 1, 1, ⟨0, 1, 0, 1, znOps 1, []⟩⟩

example : realGame toyEc toyParams toyPed [] [3, 4] toyBreaker = 4 / 5 ∧
    idealGame toyEc 2 toyBreaker = 9 / 100 := by
  constructor
  · unfold realGame prob
    rw [show (Finset.univ.filter fun t : Draw toyEc × Draw toyEc × Unit => saysYes toyBreaker t.2.2
        (realView toyEc toyParams toyPed [] [3, 4] t.2.1.val t.1.val)).card = 80 by decide +kernel,
      show Fintype.card (Draw toyEc × Draw toyEc × Unit) = 100 by decide +kernel]
    norm_num
  · unfold idealGame prob
    rw [show (Finset.univ.filter fun t : Draw toyEc × (Fin 2 → Draw toyEc) × Unit =>
        toyBreaker (t.1.point toyEc) t.2.2 (List.ofFn fun i => (t.2.1 i).point toyEc)).card = 90 by
          decide +kernel,
      show Fintype.card (Draw toyEc × (Fin 2 → Draw toyEc) × Unit) = 1000 by decide +kernel]
    norm_num

end PJC.DyPrf
