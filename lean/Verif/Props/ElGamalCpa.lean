import Verif.Props.Ddh
import Verif.Props.Hiding
import Verif.Props.Nist
/-
C113: ElGamal ciphertexts and re-randomized ciphertexts hide what is in them, unless the decisional
Diffie-Hellman problem of the curve can be solved; this also holds for a joint key made of shares,
as long as one share is secret and the other shares were chosen without looking at it.

Specification.  A spy sees the joint public key and then asks `N` questions, one after the other:
each names two messages to encrypt or two ciphertexts to re-randomize, and may depend on the key, on
the spy's own coins and on the answers so far.  In the left game the first of the two is always
taken, in the right game the second.  At the end the spy says "yes" or "no".
-/
set_option linter.unusedSectionVars false
namespace PJC.Cpa
open PJC PJC.Props PJC.Prob PJC.Protocol

variable {G : Type} [AddCommGroup G] [DecidableEq G]

/-! ### Specification -/

/-- What the spy asks. -/
inductive Query (G : Type) where
  | encrypt (left right : G)
  | reRandomize (left right : ElGamal.Ct G)

/-- A spy with coins in `C`. -/
structure Spy (G C : Type) where
  ask : ElGamal.PublicKey G → C → List (ElGamal.Ct G) → Query G
  yes : ElGamal.PublicKey G → C → List (ElGamal.Ct G) → Prop

/-- The answer of the code to a question, from a random word. -/
def answer (E : EcGroup G) (pk : ElGamal.PublicKey G) (right : Bool) (q : Query G) (w : Nat) :
    Res (ElGamal.Ct G) :=
  match q with
  | .encrypt m m' => ElGamal.encrypt E pk (if right then m' else m) w
  | .reRandomize c c' => ElGamal.reRandomize E pk (if right then c' else c) w

/-- Questions and answers, one for each random word. -/
def answers (E : EcGroup G) (pk : ElGamal.PublicKey G) (right : Bool)
    (ask : List (ElGamal.Ct G) → Query G) :
    List Nat → List (ElGamal.Ct G) → Res (List (ElGamal.Ct G))
  | [], sofar => .ok sofar
  | w :: ws, sofar => do
    let c ← answer E pk right (ask sofar) w
    answers E pk right ask ws (sofar ++ [c])

/-- A share of the joint key whose private part is known. -/
def knownShare (E : EcGroup G) (x : Int) : ElGamal.PublicKey G := ⟨E.gen, x • E.gen⟩

/-- What the spy sees: the joint key made of a new share and of shares before and after it whose
private parts the spy knows, and the answers. -/
def view (E : EcGroup G) (before after : List Int) {C : Type} (A : Spy G C) (right : Bool)
    (key : Nat) (words : List Nat) (coins : C) :
    Res (ElGamal.PublicKey G × List (ElGamal.Ct G)) := do
  let kp ← ElGamal.generateKeyPair E key
  let pk ← ElGamal.publicKeyFromShares
    (before.map (knownShare E) ++ kp.1 :: after.map (knownShare E))
  let cs ← answers E pk right (A.ask pk coins) words []
  return (pk, cs)

/-- The spy says yes. -/
def saysYes {C : Type} (A : Spy G C) (coins : C) :
    Res (ElGamal.PublicKey G × List (ElGamal.Ct G)) → Prop
  | .ok v => A.yes v.1 coins v.2
  | _ => False

instance {C : Type} (A : Spy G C) [∀ pk c l, Decidable (A.yes pk c l)] (coins : C)
    (r : Res (ElGamal.PublicKey G × List (ElGamal.Ct G))) : Decidable (saysYes A coins r) := by
  unfold saysYes; split <;> infer_instance

/-- The probability that the spy says yes in the left or the right game: the key, the random words
of the `N` answers and the spy's coins are uniform. -/
def game (E : EcGroup G) (before after : List Int) {C : Type} [Fintype C] (A : Spy G C)
    [∀ pk c l, Decidable (A.yes pk c l)] (N : Nat) (right : Bool) : ℚ :=
  prob fun t : Draw E × (Fin N → Draw E) × C =>
    saysYes A t.2.2 (view E before after A right t.1.val (List.ofFn fun i => (t.2.1 i).val) t.2.2)

/-! ### The algorithm against Diffie-Hellman -/

/-- The ciphertext a question is about (a message is an unmasked ciphertext of itself). -/
def Query.pick (right : Bool) : Query G → ElGamal.Ct G
  | .encrypt m m' => ⟨0, if right then m' else m⟩
  | .reRandomize c c' => if right then c' else c

/-- Masking a ciphertext. -/
def mask (c : ElGamal.Ct G) (U V : G) : ElGamal.Ct G := ⟨c.u + U, c.e + V⟩

/-- Questions and answers, when the answers are given by functions. -/
def run (ask : List (ElGamal.Ct G) → Query G) :
    List (Query G → ElGamal.Ct G) → List (ElGamal.Ct G) → List (ElGamal.Ct G)
  | [], sofar => sofar
  | f :: fs, sofar => run ask fs (sofar ++ [f (ask sofar)])

/-- The algorithm: it gives the spy a joint key made of the first point, answers the questions
before the `j`-th in the right way and those after it in the left way with words of its own, and
the `j`-th (`right` or left) with the second and the third point as the masks.  `s` is the sum of
the known private shares. -/
def cpaAlg (E : EcGroup G) (s : Int) {C : Type} (A : Spy G C) {N : Nat} (right : Bool)
    (j : Fin N) : DdhAlg G ((Fin N → Draw E) × C) := fun X Y Z c =>
  A.yes ⟨E.gen, X + s • E.gen⟩ c.2 (run (A.ask ⟨E.gen, X + s • E.gen⟩ c.2)
    (List.ofFn fun i q =>
      if i = j then mask (q.pick right) Y (Z + s • Y)
      else mask (q.pick (decide (i < j))) ((c.1 i).point E)
        ((c.1 i).scalar • (X + s • E.gen))) [])

instance (E : EcGroup G) (s : Int) {C : Type} (A : Spy G C) [∀ pk c l, Decidable (A.yes pk c l)]
    {N : Nat} (right : Bool) (j : Fin N) (X Y Z : G) (c : (Fin N → Draw E) × C) :
    Decidable (cpaAlg E s A right j X Y Z c) := by unfold cpaAlg; infer_instance

/-! ### The games in terms of `run` -/

theorem generatePrivateKey_draw {E : EcGroup G} (hE : E.Lawful) (w : Draw E) :
    E.generatePrivateKey w.val = .ok w.scalar := by
  rw [generatePrivateKey_word hE w.isLt]
  simp [Draw.scalar]

theorem answer_draw {E : EcGroup G} (hE : E.Lawful) (y : G) (right : Bool) (q : Query G)
    (w : Draw E) :
    answer E ⟨E.gen, y⟩ right q w.val =
      .ok (mask (q.pick right) (w.point E) (w.scalar • y)) := by
  cases q <;>
    simp [answer, ElGamal.encrypt, ElGamal.reRandomize, generatePrivateKey_draw hE, Query.pick,
      mask, Draw.point, Draw.scalar]

theorem answers_draw {E : EcGroup G} (hE : E.Lawful) (y : G) (right : Bool)
    (ask : List (ElGamal.Ct G) → Query G) : ∀ (ws : List (Draw E)) (sofar : List (ElGamal.Ct G)),
    answers E ⟨E.gen, y⟩ right ask (ws.map Fin.val) sofar =
      .ok (run ask (ws.map fun w q => mask (q.pick right) (w.point E) (w.scalar • y)) sofar)
  | [], sofar => rfl
  | w :: ws, sofar => by
    simp only [List.map_cons, answers, run, answer_draw hE, Res.ok_bind]
    exact answers_draw hE y right ask ws _

theorem sharesLoop_known {E : EcGroup G} : ∀ (l : List Int) (y : G),
    ElGamal.sharesLoop E.gen (l.map (knownShare E)) y = .ok (y + l.sum • E.gen)
  | [], y => by simp [ElGamal.sharesLoop]
  | x :: l, y => by
    simp only [List.map_cons, ElGamal.sharesLoop, knownShare, if_true]
    rw [sharesLoop_known (E := E) l (y + x • E.gen), List.sum_cons, add_zsmul, add_assoc]

theorem sharesLoop_append (g : G) : ∀ (l l' : List (ElGamal.PublicKey G)) (y : G),
    ElGamal.sharesLoop g (l ++ l') y = (ElGamal.sharesLoop g l y >>= ElGamal.sharesLoop g l')
  | [], l', y => by simp [ElGamal.sharesLoop]
  | s :: l, l', y => by
    simp only [List.cons_append, ElGamal.sharesLoop]
    split
    · exact sharesLoop_append g l l' _
    · rfl

/-- The joint key. -/
theorem joint_key (E : EcGroup G) (before after : List Int) (x : Int) :
    ElGamal.publicKeyFromShares (before.map (knownShare E) ++ ⟨E.gen, x • E.gen⟩ ::
      after.map (knownShare E)) =
      .ok ⟨E.gen, x • E.gen + (before.sum + after.sum) • E.gen⟩ := by
  have tail : ∀ y : G, ElGamal.sharesLoop E.gen (⟨E.gen, x • E.gen⟩ :: after.map (knownShare E)) y =
      .ok (y + x • E.gen + after.sum • E.gen) := by
    intro y
    simp only [ElGamal.sharesLoop, if_true]
    exact sharesLoop_known after _
  cases before with
  | nil =>
    simp only [List.map_nil, List.nil_append, ElGamal.publicKeyFromShares, sharesLoop_known,
      Res.ok_bind, Res.pure_eq, List.sum_nil, zero_add]
  | cons b before =>
    simp only [List.map_cons, List.cons_append, ElGamal.publicKeyFromShares, knownShare]
    rw [sharesLoop_append, sharesLoop_known (E := E) before (b • E.gen)]
    simp only [Res.ok_bind, tail, Res.pure_eq, List.sum_cons, add_zsmul]
    congr 2
    abel

theorem view_draw {E : EcGroup G} (hE : E.Lawful) (before after : List Int) {C : Type}
    (A : Spy G C) (right : Bool) (key : Draw E) {N : Nat} (r : Fin N → Draw E) (coins : C) :
    view E before after A right key.val (List.ofFn fun i => (r i).val) coins =
      .ok (⟨E.gen, key.point E + (before.sum + after.sum) • E.gen⟩,
        run (A.ask ⟨E.gen, key.point E + (before.sum + after.sum) • E.gen⟩ coins)
          (List.ofFn fun i q => mask (q.pick right) ((r i).point E)
            ((r i).scalar • (key.point E + (before.sum + after.sum) • E.gen))) []) := by
  have e : (List.ofFn fun i => (r i).val) = (List.ofFn r).map Fin.val := by
    rw [List.map_ofFn]; rfl
  have e' := answers_draw hE (key.point E + (before.sum + after.sum) • E.gen) right
    (A.ask ⟨E.gen, key.point E + (before.sum + after.sum) • E.gen⟩ coins) (List.ofFn r) []
  unfold view ElGamal.generateKeyPair
  simp only [generatePrivateKey_draw hE, Res.ok_bind, Res.pure_eq, joint_key]
  have hp : key.scalar • E.gen = key.point E := rfl
  rw [hp, e, e', List.map_ofFn]
  rfl

/-- The `j`-th hybrid: the first `j` questions are answered in the right way. -/
def hyb (E : EcGroup G) (s : Int) {C : Type} (A : Spy G C) {N : Nat} (j : Nat)
    (t : Draw E × (Fin N → Draw E) × C) : Prop :=
  A.yes ⟨E.gen, t.1.point E + s • E.gen⟩ t.2.2
    (run (A.ask ⟨E.gen, t.1.point E + s • E.gen⟩ t.2.2)
      (List.ofFn fun i q => mask (q.pick (decide (i.val < j))) ((t.2.1 i).point E)
        ((t.2.1 i).scalar • (t.1.point E + s • E.gen))) [])

instance (E : EcGroup G) (s : Int) {C : Type} (A : Spy G C) [∀ pk c l, Decidable (A.yes pk c l)]
    {N : Nat} (j : Nat) : DecidablePred (hyb E s A (N := N) j) := fun _ => by
  unfold hyb; infer_instance

theorem game_hyb {E : EcGroup G} (hE : E.Lawful) (before after : List Int) {C : Type} [Fintype C]
    (A : Spy G C) [∀ pk c l, Decidable (A.yes pk c l)] (N : Nat) (right : Bool) :
    game E before after A N right =
      prob (hyb E (before.sum + after.sum) A (N := N) (if right then N else 0)) := by
  apply prob_congr
  rintro ⟨x, r, c⟩
  rw [view_draw hE]
  show A.yes _ _ _ ↔ A.yes _ _ _
  dsimp only
  apply iff_of_eq
  congr 3
  funext i q
  cases right <;> simp

/-- A Diffie-Hellman triple makes the algorithm play a hybrid. -/
theorem cpaAlg_real {E : EcGroup G} [hE : Fact E.Lawful] (s : Int) {C : Type} [Fintype C]
    (A : Spy G C) [∀ pk c l, Decidable (A.yes pk c l)] {N : Nat} (j : Fin N) (right : Bool) :
    ddhReal E (cpaAlg E s A right j) =
      prob (hyb E s A (N := N) (if right then j.val + 1 else j.val)) := by
  let e : (Draw E × Draw E × ((Fin N → Draw E) × C)) ≃
      ((Draw E × (Fin N → Draw E) × C) × Draw E) :=
    { toFun := fun t => ((t.1, Function.update t.2.2.1 j t.2.1, t.2.2.2), t.2.2.1 j)
      invFun := fun t => (t.1.1, t.1.2.1 j, Function.update t.1.2.1 j t.2, t.1.2.2)
      left_inv := fun t => by simp
      right_inv := fun t => by simp }
  rw [← prob_fst (β := Draw E) (hyb E s A (N := N) (if right then j.val + 1 else j.val)),
    ← prob_equiv e]
  apply prob_congr
  rintro ⟨x, y, r, c⟩
  simp only [cpaAlg, hyb, e, Equiv.coe_fn_mk]
  apply iff_of_eq
  congr 3
  funext i q
  by_cases hi : i = j
  · subst hi
    have hd : decide (i.val < if right = true then i.val + 1 else i.val) = right := by
      cases right <;> simp
    simp only [if_true, Function.update_self, hd]
    congr 1
    simp only [Draw.point, Draw.scalar, zsmul_add]
    congr 1
    · exact zsmul_comm _ _ _
    · exact zsmul_comm _ _ _
  · have hv : i.val ≠ j.val := fun h => hi (Fin.ext h)
    have hd : decide (i.val < if right = true then j.val + 1 else j.val) = decide (i < j) := by
      rw [decide_eq_decide, Fin.lt_def]
      cases right
      · simp
      · simp only [if_true]; omega
    simp only [hi, if_false, Function.update_of_ne (show i ≠ j from hi), hd]

/-! ### Random masks -/

/-- Where the one function that is exchanged matters. -/
theorem run_set (ask : List (ElGamal.Ct G) → Query G) :
    ∀ (fs : List (Query G → ElGamal.Ct G)) (sofar : List (ElGamal.Ct G)) (j : Nat),
    j < fs.length → ∃ (q : Query G) (h : ElGamal.Ct G → List (ElGamal.Ct G)),
      ∀ f, run ask (fs.set j f) sofar = h (f q)
  | [], sofar, j, hj => by simp at hj
  | f0 :: fs, sofar, 0, _ =>
    ⟨ask sofar, fun c => run ask fs (sofar ++ [c]), fun f => rfl⟩
  | f0 :: fs, sofar, j + 1, hj => by
    obtain ⟨q, h, hh⟩ := run_set ask fs (sofar ++ [f0 (ask sofar)]) j (by simpa using hj)
    exact ⟨q, h, fun f => hh f⟩

theorem run_update (ask : List (ElGamal.Ct G) → Query G) {N : Nat}
    (fs : Fin N → Query G → ElGamal.Ct G) (j : Fin N) :
    ∃ (q : Query G) (h : ElGamal.Ct G → List (ElGamal.Ct G)),
      ∀ f, run ask (List.ofFn fun i => if i = j then f else fs i) [] = h (f q) := by
  obtain ⟨q, h, hh⟩ := run_set ask (List.ofFn fs) [] j.val (by simp)
  refine ⟨q, h, fun f => ?_⟩
  rw [← hh f]
  congr 1
  apply List.ext_getElem
  · simp
  · intro n h1 h2
    simp only [List.getElem_ofFn, List.getElem_set]
    by_cases hn : j.val = n
    · rw [if_pos hn, if_pos (Fin.ext hn.symm)]
    · rw [if_neg hn, if_neg (fun h => hn (by rw [← h]))]

/-- Over all scalars, the sum of a function of a shifted point does not depend on the shift. -/
theorem sum_shift {E : EcGroup G} (hE : E.Lawful) (hc : Nat.card G = E.order) (φ : G → ℚ)
    (l l' : G) :
    ∑ z ∈ Finset.range E.order, φ (l + (z : Int) • E.gen) =
      ∑ z ∈ Finset.range E.order, φ (l' + (z : Int) • E.gen) := by
  have hp := hE.prime
  have : Finite G := Nat.finite_of_card_ne_zero (by rw [hc]; exact hp.ne_zero)
  have := Fintype.ofFinite G
  have key : ∀ a : G, ∑ z ∈ Finset.range E.order, φ (a + (z : Int) • E.gen) = ∑ Q : G, φ Q := by
    intro a
    have hinj : Set.InjOn (fun z : Nat => a + (z : Int) • E.gen) (Finset.range E.order) := by
      intro z hz z' hz' h
      simp only [Finset.coe_range, Set.mem_Iio] at hz hz'
      have h0 : ((z : Int) - z') • E.gen = 0 := by
        rw [sub_zsmul, add_left_cancel h, add_neg_cancel]
      by_contra hne
      refine hE.zsmul_ne ?_ hE.gen_ne h0
      intro hd
      have := Int.eq_zero_of_abs_lt_dvd hd (by rw [abs_lt]; constructor <;> omega)
      omega
    have himg : (Finset.range E.order).image (fun z : Nat => a + (z : Int) • E.gen) =
        Finset.univ := by
      apply Finset.eq_univ_of_card
      rw [Finset.card_image_of_injOn hinj, Finset.card_range, ← hc, Nat.card_eq_fintype_card]
    rw [← himg, Finset.sum_image hinj]
  rw [key, key]

/-- Without the scalar zero, it depends on it by at most one value. -/
theorem shift_close {E : EcGroup G} (hE : E.Lawful) (hc : Nat.card G = E.order) (φ : G → ℚ)
    (h0 : ∀ Q, 0 ≤ φ Q) (h1 : ∀ Q, φ Q ≤ 1) (l l' : G) :
    |∑ z : Draw E, φ (l + z.point E) - ∑ z : Draw E, φ (l' + z.point E)| ≤ 1 := by
  have key : ∀ a : G, ∑ z ∈ Finset.range E.order, φ (a + (z : Int) • E.gen) =
      ∑ z : Draw E, φ (a + z.point E) + φ a := by
    intro a
    have e : E.order = (E.order - 1) + 1 := by have := hE.prime.pos; omega
    have e' : ∑ z ∈ Finset.range E.order, φ (a + (z : Int) • E.gen) =
        ∑ z ∈ Finset.range ((E.order - 1) + 1), φ (a + (z : Int) • E.gen) := by rw [← e]
    rw [e', Finset.sum_range_succ',
      Finset.sum_range fun z : Nat => φ (a + ((z + 1 : Nat) : Int) • E.gen)]
    simp [Draw.point]
  have hs := sum_shift hE hc φ l l'
  rw [key, key] at hs
  have a1 := h0 l; have a2 := h1 l; have a3 := h0 l'; have a4 := h1 l'
  rw [abs_le]
  constructor <;> linarith

/-- A question about two masked points. -/
theorem mask_close {E : EcGroup G} [hE : Fact E.Lawful] (hc : Nat.card G = E.order)
    (F : G → G → Prop) [∀ U V, Decidable (F U V)] (s : Int) (A A' B B' : G) :
    |prob (fun t : Draw E × Draw E =>
        F (A + t.1.point E) (B + (t.2.point E + s • t.1.point E))) -
      prob (fun t : Draw E × Draw E =>
        F (A' + t.1.point E) (B' + (t.2.point E + s • t.1.point E)))| ≤ 2 / (E.order - 1 : ℕ) := by
  have hn : (0 : ℚ) < (E.order - 1 : ℕ) := by
    have := hE.out.prime.two_le
    exact_mod_cast (by omega : 0 < E.order - 1)
  have hcard : (Fintype.card (Draw E) : ℚ) = (E.order - 1 : ℕ) := by simp
  -- the probability over the second mask, from the first masked point
  let φ : G → ℚ := fun U => prob fun z : Draw E => F U (B' + s • (U - A') + z.point E)
  have e1 : prob (fun t : Draw E × Draw E =>
        F (A' + t.1.point E) (B' + (t.2.point E + s • t.1.point E))) =
      (∑ y : Draw E, φ (A' + y.point E)) / (E.order - 1 : ℕ) := by
    rw [prob_prod (fun y z : Draw E => F (A' + y.point E) (B' + (z.point E + s • y.point E))), hcard]
    congr 1
    refine Finset.sum_congr rfl fun y _ => prob_congr fun z => ?_
    rw [add_sub_cancel_left, add_assoc, add_comm (z.point E)]
  have e2 : |prob (fun t : Draw E × Draw E =>
        F (A + t.1.point E) (B + (t.2.point E + s • t.1.point E))) -
      (∑ y : Draw E, φ (A + y.point E)) / (E.order - 1 : ℕ)| ≤ 1 / (E.order - 1 : ℕ) := by
    rw [prob_prod (fun y z : Draw E => F (A + y.point E) (B + (z.point E + s • y.point E))), hcard,
      ← sub_div, ← Finset.sum_sub_distrib, abs_div, abs_of_pos hn]
    apply div_le_div_of_nonneg_right _ hn.le
    have each : ∀ y : Draw E, |prob (fun z : Draw E =>
        F (A + y.point E) (B + (z.point E + s • y.point E))) - φ (A + y.point E)| ≤
          1 / (E.order - 1 : ℕ) := by
      intro y
      have := shift_close hE.out hc (fun V => if F (A + y.point E) V then 1 else 0)
        (fun Q => by split <;> norm_num) (fun Q => by split <;> norm_num)
        (B + s • y.point E) (B' + s • (A + y.point E - A'))
      have cnt : ∀ b : G, prob (fun z : Draw E => F (A + y.point E) (b + z.point E)) =
          (∑ z : Draw E, if F (A + y.point E) (b + z.point E) then (1 : ℚ) else 0) /
            (E.order - 1 : ℕ) := by
        intro b
        unfold prob
        rw [hcard, Finset.sum_boole]
      have c1 : prob (fun z : Draw E => F (A + y.point E) (B + (z.point E + s • y.point E))) =
          prob (fun z : Draw E => F (A + y.point E) (B + s • y.point E + z.point E)) :=
        prob_congr fun z => by rw [add_assoc, add_comm (z.point E)]
      rw [c1, cnt]
      show |_ - prob (fun z : Draw E => F (A + y.point E) (B' + s • (A + y.point E - A') +
        z.point E))| ≤ _
      rw [cnt, ← sub_div, abs_div, abs_of_pos hn]
      exact div_le_div_of_nonneg_right this hn.le
    calc _ ≤ ∑ y : Draw E, |prob (fun z : Draw E =>
            F (A + y.point E) (B + (z.point E + s • y.point E))) - φ (A + y.point E)| :=
          Finset.abs_sum_le_sum_abs _ _
      _ ≤ ∑ _y : Draw E, (1 : ℚ) / (E.order - 1 : ℕ) := Finset.sum_le_sum fun y _ => each y
      _ = 1 := by
          rw [Finset.sum_const, Finset.card_univ, nsmul_eq_mul, hcard]
          field_simp
  have e3 : |(∑ y : Draw E, φ (A + y.point E)) / (E.order - 1 : ℕ) -
      (∑ y : Draw E, φ (A' + y.point E)) / (E.order - 1 : ℕ)| ≤ 1 / (E.order - 1 : ℕ) := by
    rw [← sub_div, abs_div, abs_of_pos hn]
    exact div_le_div_of_nonneg_right (shift_close hE.out hc φ (fun _ => prob_nonneg _)
      (fun _ => prob_le_one _) A A') hn.le
  rw [e1]
  calc _ ≤ _ := abs_sub_le _ ((∑ y : Draw E, φ (A + y.point E)) / (E.order - 1 : ℕ)) _
    _ ≤ 1 / (E.order - 1 : ℕ) + 1 / (E.order - 1 : ℕ) := add_le_add e2 e3
    _ = 2 / (E.order - 1 : ℕ) := by ring

/-- With random masks the two ways of answering the `j`-th question hardly differ. -/
theorem cpaAlg_rand {E : EcGroup G} [hE : Fact E.Lawful] (hc : Nat.card G = E.order) (s : Int)
    {C : Type} [Fintype C] [Nonempty C] (A : Spy G C) [∀ pk c l, Decidable (A.yes pk c l)] {N : Nat}
    (j : Fin N) :
    |ddhRand E (cpaAlg E s A false j) - ddhRand E (cpaAlg E s A true j)| ≤
      2 / (E.order - 1 : ℕ) := by
  have form : ∀ right, ddhRand E (cpaAlg E s A right j) =
      prob (fun t : (Draw E × (Fin N → Draw E) × C) × (Draw E × Draw E) =>
        cpaAlg E s A right j (t.1.1.point E) (t.2.1.point E) (t.2.2.point E) t.1.2) := by
    intro right
    unfold ddhRand
    rw [← prob_equiv (⟨fun t => ((t.1.1, t.2), t.1.2), fun t => ((t.1.1, t.2), t.1.2),
      fun _ => rfl, fun _ => rfl⟩ : ((Draw E × Draw E × Draw E) × ((Fin N → Draw E) × C)) ≃
        ((Draw E × (Fin N → Draw E) × C) × (Draw E × Draw E)))]
    rfl
  rw [form, form]
  refine prob_prod_close (x := 2 / (E.order - 1 : ℕ)) (S := fun (a : Draw E × (Fin N → Draw E) × C) (b : Draw E × Draw E) =>
      cpaAlg E s A false j (a.1.point E) (b.1.point E) (b.2.point E) a.2)
    (T := fun (a : Draw E × (Fin N → Draw E) × C) (b : Draw E × Draw E) =>
      cpaAlg E s A true j (a.1.point E) (b.1.point E) (b.2.point E) a.2) (by positivity) ?_
  rintro ⟨x, r, c⟩
  obtain ⟨q, h, hh⟩ := run_update (A.ask ⟨E.gen, x.point E + s • E.gen⟩ c)
    (fun i q => mask (q.pick (decide (i < j))) ((r i).point E)
      ((r i).scalar • (x.point E + s • E.gen))) j
  have hq : ∀ right (Y Z : G), cpaAlg E s A right j (x.point E) Y Z (r, c) ↔
      A.yes ⟨E.gen, x.point E + s • E.gen⟩ c (h (mask (q.pick right) Y (Z + s • Y))) := by
    intro right Y Z
    unfold cpaAlg
    rw [← hh fun q => mask (q.pick right) Y (Z + s • Y)]
    apply iff_of_eq
    congr 3
    funext i q
    split <;> rfl
  have := mask_close hc (fun U V => A.yes ⟨E.gen, x.point E + s • E.gen⟩ c (h ⟨U, V⟩)) s
    (q.pick false).u (q.pick true).u (q.pick false).e (q.pick true).e
  rw [prob_congr fun t : Draw E × Draw E => hq false (t.1.point E) (t.2.point E),
    prob_congr fun t : Draw E × Draw E => hq true (t.1.point E) (t.2.point E)]
  exact this

/-! ### C113 -/

/-- **C113**.  What a spy says in the left and in the right game differs by at most the
Diffie-Hellman advantages of `2 N` algorithms written out above, and `2 / (order - 1)` for each
question. -/
theorem C113_hides (E : EcGroup G) (hE : E.Lawful) (hc : Nat.card G = E.order)
    (before after : List Int) {C : Type} [Fintype C] [Nonempty C] (A : Spy G C)
    [∀ pk c l, Decidable (A.yes pk c l)] (N : Nat) :
    |game E before after A N false - game E before after A N true| ≤
      ∑ j : Fin N, (|ddhAdv E (cpaAlg E (before.sum + after.sum) A false j)| +
        |ddhAdv E (cpaAlg E (before.sum + after.sum) A true j)| + 2 / (E.order - 1 : ℕ)) := by
  have := Fact.mk hE
  generalize hs : before.sum + after.sum = s
  rw [game_hyb hE, game_hyb hE, hs]
  have tel : prob (hyb E s A (N := N) 0) - prob (hyb E s A (N := N) N) =
      ∑ j : Fin N, (prob (hyb E s A (N := N) j.val) - prob (hyb E s A (N := N) (j.val + 1))) := by
    have : ∀ k, prob (hyb E s A (N := N) 0) - prob (hyb E s A (N := N) k) =
        ∑ j ∈ Finset.range k,
          (prob (hyb E s A (N := N) j) - prob (hyb E s A (N := N) (j + 1))) := by
      intro k
      rw [Finset.sum_range_sub']
    rw [this N, Finset.sum_range]
  simp only [Bool.false_eq_true, if_false, if_true]
  rw [tel]
  refine (Finset.abs_sum_le_sum_abs _ _).trans (Finset.sum_le_sum fun j _ => ?_)
  have r0 := cpaAlg_real (E := E) s A j false
  have r1 := cpaAlg_real (E := E) s A j true
  simp only [Bool.false_eq_true, if_false, if_true] at r0 r1
  have d := cpaAlg_rand (E := E) hc s A j
  rw [← r0, ← r1]
  have : ddhReal E (cpaAlg E s A false j) - ddhReal E (cpaAlg E s A true j) =
      ddhAdv E (cpaAlg E s A false j) +
        (-ddhAdv E (cpaAlg E s A true j) +
          (ddhRand E (cpaAlg E s A false j) - ddhRand E (cpaAlg E s A true j))) := by
    unfold ddhAdv; ring
  rw [this]
  refine (abs_add_le _ _).trans ?_
  have := abs_add_le (-ddhAdv E (cpaAlg E s A true j))
    (ddhRand E (cpaAlg E s A false j) - ddhRand E (cpaAlg E s A true j))
  rw [abs_neg] at this
  linarith

/-- **C113, negation for shares chosen later**.  Someone who sees the other share before making
their own can make the joint key one whose private key they know: the shares are accepted, and they
alone decrypt everything encrypted under the joint key.  Nothing in the API asks for a proof that
the maker of a share knows its private part. -/
theorem C113_rogue_share_fails (E : EcGroup G) (w a : Nat)
    (honest : ElGamal.PublicKey G) (sk : ElGamal.PrivateKey)
    (hk : ElGamal.generateKeyPair E w = .ok (honest, sk)) (own : ElGamal.PublicKey G)
    (ownSk : ElGamal.PrivateKey) (ha : ElGamal.generateKeyPair E a = .ok (own, ownSk)) :
    ∃ pk, ElGamal.publicKeyFromShares [honest, ⟨honest.g, own.y - honest.y⟩] = .ok pk ∧
      ∀ (m : G) (w' : Nat) (c : ElGamal.Ct G), ElGamal.encrypt E pk m w' = .ok c →
        ElGamal.decrypt ownSk c = .ok m := by
  unfold ElGamal.generateKeyPair at hk ha
  simp only [Res.bind_eq_ok, Res.pure_eq, Res.ok.injEq, Prod.mk.injEq] at hk ha
  obtain ⟨x, -, rfl, rfl⟩ := hk
  obtain ⟨y, -, rfl, rfl⟩ := ha
  refine ⟨⟨E.gen, y • E.gen⟩, ?_, ?_⟩
  · simp [ElGamal.publicKeyFromShares, ElGamal.sharesLoop]
  · intro m w' c h
    simp only [ElGamal.encrypt, Res.bind_eq_ok, Res.pure_eq, Res.ok.injEq] at h
    obtain ⟨r, -, rfl⟩ := h
    simp only [ElGamal.decrypt, Res.ok.injEq]
    rw [zsmul_comm E.gen r y]
    abel

/-- **C113 on the NIST curves**: nothing is assumed of the group. -/
theorem C113_nist {c : Curve} {q : Nat} {gx gy : Int} (h : Curve.Named c q gx gy) [Fact q.Prime]
    (H : Hashes) (sqrt : BigNum → BigNum → Res BigNum) (fuel : Nat)
    (sswu : Bytes → Bytes → Res (c.W q).Point) (before after : List Int) {C : Type} [Fintype C]
    [Nonempty C] (A : Spy (c.W q).Point C) [∀ pk c l, Decidable (A.yes pk c l)] (N : Nat) :
    let E := c.toEcGroup q (c.basePoint q gx gy) H sqrt fuel sswu
    |game E before after A N false - game E before after A N true| ≤
      ∑ j : Fin N, (|ddhAdv E (cpaAlg E (before.sum + after.sum) A false j)| +
        |ddhAdv E (cpaAlg E (before.sum + after.sum) A true j)| + 2 / (E.order - 1 : ℕ)) :=
  C113_hides _ (Curve.C111_lawful h H sqrt fuel sswu) h.certified.card before after A N

/-! ### Examples -/

/-- A spy on the toy group of order 11 who asks for 2 or 5 to be encrypted, then for the answer or
a ciphertext of its own to be re-randomized, and looks at the last answer. -/
def toySpy : Spy (ZMod 11) (Fin 3) where
  ask _ c l := match l with
    | [] => .encrypt 2 5
    | a :: _ => .reRandomize a ⟨a.u, c.val⟩
  yes pk _ l := match l with
    | [a, b] => a.e + b.e = pk.y
    | _ => False

instance : ∀ pk c l, Decidable (toySpy.yes pk c l) := fun _ _ l => by
  unfold toySpy; dsimp only; split <;> infer_instance

example := C113_hides toyEc toyEc_lawful toy_card [4, 9] [3] toySpy 2

/-- The bound is not met by everybody: who multiplies in the toy group tells the games apart. -/
def toyBreaker : Spy (ZMod 11) Unit where
  ask _ _ _ := .encrypt 0 1
  yes pk _ l := l.map (fun c => c.e) = l.map fun c => c.u * pk.y

instance : ∀ pk c l, Decidable (toyBreaker.yes pk c l) := fun _ _ _ => by
  unfold toyBreaker; infer_instance

example : game toyEc [] [] toyBreaker 1 false = 1 ∧ game toyEc [] [] toyBreaker 1 true = 0 := by
  constructor <;> unfold game prob
  · have h1 : (Finset.univ.filter fun t : Draw toyEc × (Fin 1 → Draw toyEc) × Unit =>
        saysYes toyBreaker t.2.2 (view toyEc [] [] toyBreaker false t.1.val
          (List.ofFn fun i => (t.2.1 i).val) t.2.2)).card = 100 := by decide +kernel
    have h2 : Fintype.card (Draw toyEc × (Fin 1 → Draw toyEc) × Unit) = 100 := by decide +kernel
    rw [h1, h2]; norm_num
  · have h1 : (Finset.univ.filter fun t : Draw toyEc × (Fin 1 → Draw toyEc) × Unit =>
        saysYes toyBreaker t.2.2 (view toyEc [] [] toyBreaker true t.1.val
          (List.ofFn fun i => (t.2.1 i).val) t.2.2)).card = 0 := by decide +kernel
    rw [h1]; norm_num

example : ∃ honest sk own ownSk, ElGamal.generateKeyPair toyEc 3 = .ok (honest, sk) ∧
    ElGamal.generateKeyPair toyEc 7 = .ok (own, ownSk) ∧ sk.x = 4 ∧ ownSk.x = 8 :=
  ⟨⟨1, 4⟩, ⟨4⟩, ⟨1, 8⟩, ⟨8⟩, rfl, rfl, rfl, rfl⟩

end PJC.Cpa
