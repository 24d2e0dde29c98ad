import Verif.Lemmas.CsLin
import Verif.Props.CamenischShoup
import Verif.Props.Dcr
/-
C121: Camenisch-Shoup ciphertexts hide the messages in them, unless the decisional Diffie-Hellman
problem among the `2 n^s`-th powers modulo `n^(s+1)`, or the decisional composite residuosity problem
of `n`, can be solved.

Specification.  A spy sees a new public key and then asks `N` questions, one after the other: each
names two message vectors, and may depend on the key, on the spy's own coins and on the answers so
far.  In the left game the first vector is always encrypted, in the right game the second.  At the
end the spy says "yes" or "no".
-/
set_option linter.unusedSectionVars false
namespace PJC.CsCpa
open PJC PJC.Props PJC.Prob PJC.Protocol

/-! ### Specification -/

/-- A spy with coins in `C`. -/
structure Spy (C : Type) where
  ask : CsPublicKey → C → List CsCt → List Int × List Int
  yes : CsPublicKey → C → List CsCt → Prop

/-- The spy only names vectors that `Encrypt` accepts: no more than `L` messages, none negative.
(Refusals are visible and would tell the games apart.) -/
def Spy.Fair {C : Type} (A : Spy C) (L : Nat) : Prop :=
  ∀ pk c l, ((A.ask pk c l).1.length ≤ L ∧ ∀ m ∈ (A.ask pk c l).1, 0 ≤ m) ∧
    (A.ask pk c l).2.length ≤ L ∧ ∀ m ∈ (A.ask pk c l).2, 0 ≤ m

/-- Questions and answers, one for each draw. -/
def answers (pub : CsPublic) (right : Bool) (ask : List CsCt → List Int × List Int) :
    List Int → List CsCt → Res (List CsCt)
  | [], sofar => .ok sofar
  | r :: rs, sofar => do
    let c ← Cs.encrypt pub (if right then (ask sofar).2 else (ask sofar).1) r
    answers pub right ask rs (sofar ++ [c])

/-- What the spy sees: a new public key and the answers. -/
def view (cfg : ExpCfg) (n s : Nat) {C : Type} (A : Spy C) (right : Bool) (h : Int) (xs rs : List Int)
    (coins : C) : Res (CsPublicKey × List CsCt) := do
  let kp ← Cs.generateKeyPair n s h xs
  let pub ← Cs.newPublic cfg n s kp.1.g kp.1.ys
  let cs ← answers pub right (A.ask kp.1 coins) rs []
  return (kp.1, cs)

/-- The spy says yes. -/
def saysYes {C : Type} (A : Spy C) (coins : C) : Res (CsPublicKey × List CsCt) → Prop
  | .ok v => A.yes v.1 coins v.2
  | _ => False

instance {C : Type} (A : Spy C) [∀ pk c l, Decidable (A.yes pk c l)] (coins : C)
    (r : Res (CsPublicKey × List CsCt)) : Decidable (saysYes A coins r) := by
  unfold saysYes; split <;> infer_instance

/-- A draw of `RelativelyPrimeRandomLessThan(m)`: a unit, standing for its representative below
`m`. -/
def drawn {m : Nat} (x : (ZMod m)ˣ) : Int := ((x : ZMod m).val : Int)

/-- The probability that the spy says yes in the left or the right game: the number the generator is
made of, the `L` private exponents, the randomness of the `N` answers and the spy's coins are
uniform. -/
def game (cfg : ExpCfg) (n s L : Nat) [NeZero n] {C : Type} [Fintype C] (A : Spy C)
    [∀ pk c l, Decidable (A.yes pk c l)] (N : Nat) (right : Bool) : ℚ :=
  prob fun t : (ZMod (n ^ (s + 1)))ˣ × (Fin L → (ZMod n)ˣ) × (Fin N → (ZMod n)ˣ) × C =>
    saysYes A t.2.2.2 (view cfg n s A right (drawn t.1) (List.ofFn fun i => drawn (t.2.1 i))
      (List.ofFn fun i => drawn (t.2.2.1 i)) t.2.2.2)

/-- An algorithm that is given four numbers modulo `n^(s+1)` and draws its own coins. -/
abbrev DhAlg (n s : Nat) (C : Type) : Type :=
  ZMod (n ^ (s + 1)) → ZMod (n ^ (s + 1)) → ZMod (n ^ (s + 1)) → ZMod (n ^ (s + 1)) → C → Prop

/-- A generator as the code makes it, from a unit modulo `n^(s+1)`. -/
def gen (n s : Nat) (h : (ZMod (n ^ (s + 1)))ˣ) : ZMod (n ^ (s + 1)) :=
  (h : ZMod (n ^ (s + 1))) ^ (2 * n ^ s)

/-- A power with a drawn exponent. -/
def pw {n s : Nat} (g : ZMod (n ^ (s + 1))) (x : (ZMod n)ˣ) : ZMod (n ^ (s + 1)) :=
  g ^ (x : ZMod n).val

/-- Probability of "yes" on a Diffie-Hellman quadruple. -/
def dhReal (n s : Nat) [NeZero n] {C : Type} [Fintype C] (B : DhAlg n s C)
    [∀ g X U Z c, Decidable (B g X U Z c)] : ℚ :=
  prob fun t : (ZMod (n ^ (s + 1)))ˣ × (ZMod n)ˣ × (ZMod n)ˣ × C =>
    B (gen n s t.1) (pw (gen n s t.1) t.2.1) (pw (gen n s t.1) t.2.2.1)
      (pw (pw (gen n s t.1) t.2.2.1) t.2.1) t.2.2.2

/-- Probability of "yes" when the fourth number is a random `2 n^s`-th power. -/
def dhRand (n s : Nat) [NeZero n] {C : Type} [Fintype C] (B : DhAlg n s C)
    [∀ g X U Z c, Decidable (B g X U Z c)] : ℚ :=
  prob fun t : (ZMod (n ^ (s + 1)))ˣ × ((ZMod n)ˣ × (ZMod n)ˣ) × (ZMod n)ˣ × C =>
    B (gen n s t.1) (pw (gen n s t.1) t.2.1.1) (pw (gen n s t.1) t.2.2.1)
      (residue n s t.2.1.2 ^ 2) t.2.2.2

/-- The advantage of an algorithm in the Diffie-Hellman problem among the `2 n^s`-th powers. -/
def dhAdv (n s : Nat) [NeZero n] {C : Type} [Fintype C] (B : DhAlg n s C)
    [∀ g X U Z c, Decidable (B g X U Z c)] : ℚ := dhReal n s B - dhRand n s B

/-! ### The two algorithms -/

/-- Questions and answers, when the answers are given by functions. -/
def run {Q X : Type} (ask : List X → Q) : List (Q → X) → List X → List X
  | [], sofar => sofar
  | f :: fs, sofar => run ask fs (sofar ++ [f (ask sofar)])

/-- The vector that is encrypted. -/
def pick (right : Bool) (q : List Int × List Int) : List Int := if right then q.2 else q.1

section
variable {n s L N : Nat} [NeZero n]

/-- A public key made of numbers modulo `n^(s+1)`. -/
def pkOf (g : ZMod (n ^ (s + 1))) (y : Fin L → ZMod (n ^ (s + 1))) : CsPublicKey :=
  ⟨n, s, (g.val : Int), List.ofFn fun i => ((y i).val : Int)⟩

/-- A ciphertext with masks `w`. -/
def encR (u : ZMod (n ^ (s + 1))) (w : Fin L → ZMod (n ^ (s + 1))) (ms : List Int) : CsCt :=
  ⟨(u.val : Int), List.ofFn fun i => ((w i * carrier n s (ms.getD i 0).toNat).val : Int)⟩

/-- Playing with the spy: `v` has the public key's components and the masks of the answer to
question `j`, whose first component is `U`; the questions before are answered in the right way and
those after it in the left way, with the randomness `rs`. -/
def play {C : Type} (A : Spy C) (right : Bool) (j : Fin N) (g U : ZMod (n ^ (s + 1)))
    (rs : Fin N → (ZMod n)ˣ) (c : C) (v : Fin L → ZMod (n ^ (s + 1)) × ZMod (n ^ (s + 1))) : Prop :=
  A.yes (pkOf g fun i => (v i).1) c (run (A.ask (pkOf g fun i => (v i).1) c)
    (List.ofFn fun i q => if i = j then encR U (fun l => (v l).2) (pick right q)
      else encR (pw g (rs i)) (fun l => pw (v l).1 (rs i)) (pick (decide (i < j)) q)) [])

/-- The algorithm against Diffie-Hellman for question `j` and component `k`. -/
def dhAlg {C : Type} (A : Spy C) (right : Bool) (j : Fin N) (k : Fin L) :
    DhAlg n s ((Fin L → (ZMod n)ˣ) × (Fin L → (ZMod n)ˣ × (ZMod n)ˣ) × (Fin N → (ZMod n)ˣ) × C) :=
  fun g X U Z c => play A right j g U c.2.2.1 c.2.2.2 fun i =>
    if i < k then (pw g (c.2.1 i).1, residue n s (c.2.1 i).2 ^ 2)
    else if i = k then (X, Z) else (pw g (c.1 i), pw U (c.1 i))

/-- The algorithm against composite residuosity for question `j` and component `k`. -/
def dcrAlg {C : Type} (A : Spy C) (right : Bool) (j : Fin N) (k : Fin L) :
    DcrAlg n s (((ZMod (n ^ (s + 1)))ˣ × (ZMod n)ˣ × (Fin L → (ZMod n)ˣ) × (Fin N → (ZMod n)ˣ) × C) ×
      (Fin L → (ZMod n)ˣ) × (Fin L → (ZMod (n ^ (s + 1)))ˣ)) :=
  fun z c => play A right j (gen n s c.1.1) (pw (gen n s c.1.1) c.1.2.1) c.1.2.2.2.1 c.1.2.2.2.2
    fun i => (pw (gen n s c.1.1) (c.1.2.2.1 i),
      if i < k then (c.2.2 i : ZMod (n ^ (s + 1))) ^ 2
      else if i = k then z ^ 2 else residue n s (c.2.1 i) ^ 2)

variable {C : Type} (A : Spy C) [∀ pk c l, Decidable (A.yes pk c l)]

instance (right : Bool) (j : Fin N) (g U : ZMod (n ^ (s + 1))) (rs : Fin N → (ZMod n)ˣ) (c : C)
    (v : Fin L → ZMod (n ^ (s + 1)) × ZMod (n ^ (s + 1))) :
    Decidable (play A right j g U rs c v) := by unfold play; infer_instance

instance (right : Bool) (j : Fin N) (k : Fin L) (g X U Z : ZMod (n ^ (s + 1))) c :
    Decidable (dhAlg A right j k g X U Z c) := by unfold dhAlg; infer_instance

instance (right : Bool) (j : Fin N) (k : Fin L) (z : ZMod (n ^ (s + 1))) c :
    Decidable (dcrAlg A right j k z c) := by unfold dcrAlg; infer_instance

/-! ### The games in terms of `run` -/

theorem val_pow' (x : ZMod (n ^ (s + 1))) (k : Nat) :
    ((x ^ k).val : Int) = (x.val : Int) ^ k % (n : Int) ^ (s + 1) := by
  have : x ^ k = ((x.val ^ k : Nat) : ZMod (n ^ (s + 1))) := by
    push_cast
    rw [ZMod.natCast_zmod_val]
  rw [this, ZMod.val_natCast]
  push_cast
  rfl

theorem val_enc (x : ZMod (n ^ (s + 1))) (k m : Nat) :
    ((x ^ k * carrier n s m).val : Int) =
      (x.val : Int) ^ k * (1 + (n : Int)) ^ m % (n : Int) ^ (s + 1) := by
  have : x ^ k * carrier n s m = ((x.val ^ k * (1 + n) ^ m : Nat) : ZMod (n ^ (s + 1))) := by
    unfold carrier
    push_cast
    rw [ZMod.natCast_zmod_val]
  rw [this, ZMod.val_natCast]
  push_cast
  rfl

theorem keys (hn : 1 < n) (h : (ZMod (n ^ (s + 1)))ˣ) (x : Fin L → (ZMod n)ˣ) :
    Cs.generateKeyPair n s (drawn h) (List.ofFn fun i => drawn (x i)) =
      .ok (pkOf (gen n s h) fun i => pw (gen n s h) (x i), ⟨List.ofFn fun i => drawn (x i)⟩) := by
  have hps1 : (0 : Int) < (n : Int) ^ (s + 1) := pow_pos (by omega) _
  have hg : Cs.getGenerator n s (drawn h) = .ok ((gen n s h).val : Int) := by
    have e : (2 * (n : Int) ^ s).toNat = 2 * n ^ s := by
      have : (2 * (n : Int) ^ s) = ((2 * n ^ s : Nat) : Int) := by push_cast; rfl
      rw [this, Int.toNat_natCast]
    have h0 : ¬ (2 * (n : Int) ^ s < 0) := by
      have : (0 : Int) ≤ (n : Int) ^ s := by positivity
      omega
    simp only [Cs.getGenerator, BN.modExp, h0, if_false, ne_of_gt hps1, e, gen, val_pow', drawn]
  have hy : (List.ofFn fun i => drawn (x i)).mapM
      (fun x => BN.modExp ((gen n s h).val : Int) x ((n : Int) ^ (s + 1))) =
      .ok (List.ofFn fun i => ((pw (gen n s h) (x i)).val : Int)) := by
    rw [Cs.mapM_ok_iff, List.forall₂_iff_get]
    refine ⟨by simp, fun i h1 h2 => ?_⟩
    simp only [List.get_eq_getElem, List.getElem_ofFn, drawn, pw, val_pow']
    have : ¬ (((x ⟨i, by simpa using h1⟩ : (ZMod n)ˣ) : ZMod n).val : Int) < 0 := by omega
    simp only [BN.modExp, this, if_false, ne_of_gt hps1, Int.toNat_natCast]
  simp only [Cs.generateKeyPair, hg, Res.ok_bind, hy, Res.pure_eq, pkOf]

theorem enc_draw {cfg : ExpCfg} {pub : CsPublic} {g : ZMod (n ^ (s + 1))}
    {y : Fin L → ZMod (n ^ (s + 1))}
    (P : Cs.PubGood cfg pub n s (pkOf g y).g (pkOf g y).ys) {ms : List Int} (hl : ms.length ≤ L)
    (h0 : ∀ m ∈ ms, 0 ≤ m) (r : (ZMod n)ˣ) :
    Cs.encrypt pub ms (drawn r) = .ok (encR (pw g r) (fun l => pw (y l) r) ms) := by
  have hany : ms.any (fun m => decide (m < 0)) = false := by
    rw [List.any_eq_false]
    intro m hm
    have := h0 m hm
    simp only [decide_eq_true_eq]
    omega
  have hr : Int.gcd (drawn r) n = 1 := by
    have := ZMod.val_coe_unit_coprime r
    exact this
  have he := Bb.encryptWithRand_ok P (ms := ms) (r := drawn r) (by simpa [pkOf] using hl) h0
    (Int.natCast_nonneg _) (Or.inl hr)
  unfold Cs.encrypt Cs.encryptAndGetRand
  rw [hany]
  simp only [Bool.false_eq_true, if_false, he, Res.ok_bind, Res.pure_eq, Res.ok.injEq]
  unfold Bb.encP encR
  congr 1
  · simp only [drawn, pw, pkOf, val_pow', Int.toNat_natCast]
  · apply List.ext_getElem
    · simp [pkOf]
    · intro i h1 h2
      have hi : i < L := by simpa using h2
      simp only [List.getElem_map, List.getElem_range, List.getElem_ofFn, pw, val_enc, pkOf, drawn,
        Int.toNat_natCast]
      rw [List.getD_eq_getElem _ _ (by simpa using hi)]
      simp

theorem answers_draw {cfg : ExpCfg} {pub : CsPublic} {g : ZMod (n ^ (s + 1))}
    {y : Fin L → ZMod (n ^ (s + 1))}
    (P : Cs.PubGood cfg pub n s (pkOf g y).g (pkOf g y).ys) (right : Bool)
    (ask : List CsCt → List Int × List Int)
    (hf : ∀ l, ((ask l).1.length ≤ L ∧ ∀ m ∈ (ask l).1, 0 ≤ m) ∧
      (ask l).2.length ≤ L ∧ ∀ m ∈ (ask l).2, 0 ≤ m) :
    ∀ (rs : List (ZMod n)ˣ) (sofar : List CsCt), answers pub right ask (rs.map drawn) sofar =
      .ok (run ask (rs.map fun r q => encR (pw g r) (fun l => pw (y l) r) (pick right q)) sofar)
  | [], sofar => rfl
  | r :: rs, sofar => by
    have hl : (pick right (ask sofar)).length ≤ L ∧ ∀ m ∈ pick right (ask sofar), 0 ≤ m := by
      cases right
      · exact (hf sofar).1
      · exact (hf sofar).2
    have he := enc_draw P hl.1 hl.2 r
    simp only [List.map_cons, answers, run]
    show (Cs.encrypt pub (pick right (ask sofar)) (drawn r) >>= _) = _
    rw [he, Res.ok_bind]
    exact answers_draw P right ask hf rs _

theorem newPublic_pkOf (cfg : ExpCfg) (hn : 1 < n) (hodd : n % 2 = 1)
    (hco : ∀ i : Nat, 1 ≤ i → i ≤ s → Nat.Coprime i n) (g : ZMod (n ^ (s + 1)))
    (y : Fin L → ZMod (n ^ (s + 1))) :
    ∃ pub, Cs.newPublic cfg n s (pkOf g y).g (pkOf g y).ys = .ok pub := by
  have lt : ∀ x : ZMod (n ^ (s + 1)), 0 ≤ (x.val : Int) ∧ (x.val : Int) < (n : Int) ^ (s + 1) := by
    intro x
    exact ⟨by positivity, by exact_mod_cast ZMod.val_lt x⟩
  obtain ⟨sk, hsk⟩ := Cs.newPrivate_ok cfg n s (pkOf g y).g (pkOf g y).ys (pkOf g y).ys hn hodd hco
    (lt g) (by
      intro z hz
      obtain ⟨i, rfl⟩ := List.mem_ofFn.1 hz
      exact lt _) rfl
  unfold Cs.newPrivate at hsk
  simp only [Res.bind_eq_ok] at hsk
  obtain ⟨pub, hpub, -⟩ := hsk
  exact ⟨pub, hpub⟩

theorem view_draw (cfg : ExpCfg) (hn : 1 < n) (hodd : n % 2 = 1)
    (hco : ∀ i : Nat, 1 ≤ i → i ≤ s → Nat.Coprime i n) (hA : A.Fair L) (right : Bool)
    (h : (ZMod (n ^ (s + 1)))ˣ) (x : Fin L → (ZMod n)ˣ) (r : Fin N → (ZMod n)ˣ) (c : C) :
    view cfg n s A right (drawn h) (List.ofFn fun i => drawn (x i))
      (List.ofFn fun i => drawn (r i)) c =
      .ok (pkOf (gen n s h) fun i => pw (gen n s h) (x i),
        run (A.ask (pkOf (gen n s h) fun i => pw (gen n s h) (x i)) c)
          (List.ofFn fun i q => encR (pw (gen n s h) (r i))
            (fun l => pw (pw (gen n s h) (x l)) (r i)) (pick right q)) []) := by
  obtain ⟨pub, hpub⟩ := newPublic_pkOf cfg hn hodd hco (gen n s h) fun i => pw (gen n s h) (x i)
  have P := Cs.newPublic_good (by omega) hpub
  have e : (List.ofFn fun i => drawn (r i)) = (List.ofFn r).map drawn := by
    rw [List.map_ofFn]; rfl
  have ha := answers_draw P right (A.ask (pkOf (gen n s h) fun i => pw (gen n s h) (x i)) c)
    (hA _ c) (List.ofFn r) []
  unfold view
  rw [keys hn, Res.ok_bind]
  dsimp only
  rw [hpub, Res.ok_bind, e, ha, Res.ok_bind, List.map_ofFn]
  rfl

/-- The `j`-th hybrid: the first `j` questions are answered in the right way. -/
def hyb (j : Nat) (t : (ZMod (n ^ (s + 1)))ˣ × (Fin L → (ZMod n)ˣ) × (Fin N → (ZMod n)ˣ) × C) : Prop :=
  A.yes (pkOf (gen n s t.1) fun i => pw (gen n s t.1) (t.2.1 i)) t.2.2.2
    (run (A.ask (pkOf (gen n s t.1) fun i => pw (gen n s t.1) (t.2.1 i)) t.2.2.2)
      (List.ofFn fun i q => encR (pw (gen n s t.1) (t.2.2.1 i))
        (fun l => pw (pw (gen n s t.1) (t.2.1 l)) (t.2.2.1 i)) (pick (decide (i.val < j)) q)) [])

instance (j : Nat) : DecidablePred (hyb (n := n) (s := s) (L := L) (N := N) A j) := fun _ => by
  unfold hyb; infer_instance

theorem game_hyb [Fintype C] (cfg : ExpCfg) (hn : 1 < n) (hodd : n % 2 = 1)
    (hco : ∀ i : Nat, 1 ≤ i → i ≤ s → Nat.Coprime i n) (hA : A.Fair L) (N : Nat) (right : Bool) :
    game cfg n s L A N right =
      prob (hyb (n := n) (s := s) (L := L) (N := N) A (if right then N else 0)) := by
  apply prob_congr
  rintro ⟨h, x, r, c⟩
  rw [view_draw A cfg hn hodd hco hA]
  show A.yes _ _ _ ↔ A.yes _ _ _
  dsimp only
  apply iff_of_eq
  congr 3
  funext i q
  cases right <;> simp

/-! ### The hybrid argument -/

/-- What is drawn besides the vectors. -/
abbrev Env (n s N : Nat) (C : Type) : Type :=
  (ZMod (n ^ (s + 1)))ˣ × (ZMod n)ˣ × (Fin N → (ZMod n)ˣ) × C

theorem pw_comm (g : ZMod (n ^ (s + 1))) (x r : (ZMod n)ˣ) : pw (pw g x) r = pw (pw g r) x := by
  unfold pw
  rw [← pow_mul, ← pow_mul, mul_comm]

/-- A hybrid, with the `j`-th answer singled out. -/
theorem hyb_play [Fintype C] (right : Bool) (j : Fin N) :
    prob (hyb (n := n) (s := s) (L := L) (N := N) A (if right then j.val + 1 else j.val)) =
      prob (fun t : Env n s N C × (Fin L → (ZMod n)ˣ) =>
        play A right j (gen n s t.1.1) (pw (gen n s t.1.1) t.1.2.1) t.1.2.2.1 t.1.2.2.2
          fun i => (pw (gen n s t.1.1) (t.2 i), pw (pw (gen n s t.1.1) t.1.2.1) (t.2 i))) := by
  let e : (Env n s N C × (Fin L → (ZMod n)ˣ)) ≃
      (((ZMod (n ^ (s + 1)))ˣ × (Fin L → (ZMod n)ˣ) × (Fin N → (ZMod n)ˣ) × C) × (ZMod n)ˣ) :=
    { toFun := fun t => ((t.1.1, t.2, Function.update t.1.2.2.1 j t.1.2.1, t.1.2.2.2), t.1.2.2.1 j)
      invFun := fun t => ((t.1.1, t.1.2.2.1 j, Function.update t.1.2.2.1 j t.2, t.1.2.2.2), t.1.2.1)
      left_inv := fun t => by simp
      right_inv := fun t => by simp }
  rw [← prob_fst (β := (ZMod n)ˣ) (hyb (n := n) (s := s) (L := L) (N := N) A
      (if right then j.val + 1 else j.val)), ← prob_equiv e]
  apply prob_congr
  rintro ⟨⟨h, r, rs, c⟩, x⟩
  simp only [hyb, play, e, Equiv.coe_fn_mk]
  apply iff_of_eq
  congr 3
  funext i q
  by_cases hi : i = j
  · subst hi
    have hd : decide (i.val < if right = true then i.val + 1 else i.val) = right := by
      cases right <;> simp
    simp only [if_true, Function.update_self, hd, pw_comm (gen n s h) _ r]
  · have hv : i.val ≠ j.val := fun h => hi (Fin.ext h)
    have hd : decide (i.val < if right = true then j.val + 1 else j.val) = decide (i < j) := by
      rw [decide_eq_decide, Fin.lt_def]
      cases right
      · simp
      · simp only [if_true]; omega
    simp only [hi, if_false, Function.update_of_ne (show i ≠ j from hi), hd]

/-- The hybrid argument for vectors, when something else is drawn as well. -/
theorem hybrid_env {K A B X : Type} [Fintype K] [Fintype A] [Nonempty A] [Fintype B] [Nonempty B]
    {M : Nat} (f : K → Fin M → A → X) (g : K → Fin M → B → X) (S : K → (Fin M → X) → Prop)
    [∀ k v, Decidable (S k v)] :
    prob (fun t : K × (Fin M → A) => S t.1 fun i => f t.1 i (t.2 i)) -
      prob (fun t : K × (Fin M → B) => S t.1 fun i => g t.1 i (t.2 i)) =
      ∑ j : Fin M, (prob (fun t : K × A × (Fin M → A) × (Fin M → B) => S t.1 fun i =>
            if i < j then g t.1 i (t.2.2.2 i) else if i = j then f t.1 i t.2.1
            else f t.1 i (t.2.2.1 i)) -
          prob (fun t : K × B × (Fin M → A) × (Fin M → B) => S t.1 fun i =>
            if i < j then g t.1 i (t.2.2.2 i) else if i = j then g t.1 i t.2.1
            else f t.1 i (t.2.2.1 i))) := by
  rw [prob_prod (fun k (a : Fin M → A) => S k fun i => f k i (a i)),
    prob_prod (fun k (b : Fin M → B) => S k fun i => g k i (b i)),
    ← sub_div, ← Finset.sum_sub_distrib,
    Finset.sum_congr rfl fun k _ => hybrid_sum (f k) (g k) (S k), Finset.sum_comm, Finset.sum_div]
  refine Finset.sum_congr rfl fun j _ => ?_
  rw [prob_prod (fun k (t : A × (Fin M → A) × (Fin M → B)) => S k fun i =>
      if i < j then g k i (t.2.2 i) else if i = j then f k i t.1 else f k i (t.2.1 i)),
    prob_prod (fun k (t : B × (Fin M → A) × (Fin M → B)) => S k fun i =>
      if i < j then g k i (t.2.2 i) else if i = j then g k i t.1 else f k i (t.2.1 i)),
    Finset.sum_sub_distrib, sub_div]

/-- First step: masks that are random powers. -/
theorem dh_step [Fintype C] [Nonempty C] (right : Bool) (j : Fin N) :
    prob (fun t : Env n s N C × (Fin L → (ZMod n)ˣ) =>
        play A right j (gen n s t.1.1) (pw (gen n s t.1.1) t.1.2.1) t.1.2.2.1 t.1.2.2.2
          fun i => (pw (gen n s t.1.1) (t.2 i), pw (pw (gen n s t.1.1) t.1.2.1) (t.2 i))) -
      prob (fun t : Env n s N C × (Fin L → (ZMod n)ˣ × (ZMod n)ˣ) =>
        play A right j (gen n s t.1.1) (pw (gen n s t.1.1) t.1.2.1) t.1.2.2.1 t.1.2.2.2
          fun i => (pw (gen n s t.1.1) (t.2 i).1, residue n s (t.2 i).2 ^ 2)) =
      ∑ k : Fin L, dhAdv n s (dhAlg A right j k) := by
  rw [hybrid_env (K := Env n s N C)
    (fun t _ (x : (ZMod n)ˣ) => (pw (gen n s t.1) x, pw (pw (gen n s t.1) t.2.1) x))
    (fun t _ (x : (ZMod n)ˣ × (ZMod n)ˣ) => (pw (gen n s t.1) x.1, residue n s x.2 ^ 2))
    (fun t v => play A right j (gen n s t.1) (pw (gen n s t.1) t.2.1) t.2.2.1 t.2.2.2 v)]
  refine Finset.sum_congr rfl fun k _ => ?_
  unfold dhAdv dhReal dhRand
  congr 1
  · rw [← prob_equiv (⟨fun t => ((t.1, t.2.2.1, t.2.2.2.2.2.1, t.2.2.2.2.2.2), t.2.1, t.2.2.2.1,
        t.2.2.2.2.1), fun t => (t.1.1, t.2.1, t.1.2.1, t.2.2.1, t.2.2.2, t.1.2.2.1, t.1.2.2.2),
        fun _ => rfl, fun _ => rfl⟩ :
      ((ZMod (n ^ (s + 1)))ˣ × (ZMod n)ˣ × (ZMod n)ˣ × ((Fin L → (ZMod n)ˣ) ×
        (Fin L → (ZMod n)ˣ × (ZMod n)ˣ) × (Fin N → (ZMod n)ˣ) × C)) ≃
      (Env n s N C × (ZMod n)ˣ × (Fin L → (ZMod n)ˣ) × (Fin L → (ZMod n)ˣ × (ZMod n)ˣ)))]
    rfl
  · rw [← prob_equiv (⟨fun t => ((t.1, t.2.2.1, t.2.2.2.2.2.1, t.2.2.2.2.2.2), t.2.1, t.2.2.2.1,
        t.2.2.2.2.1), fun t => (t.1.1, t.2.1, t.1.2.1, t.2.2.1, t.2.2.2, t.1.2.2.1, t.1.2.2.2),
        fun _ => rfl, fun _ => rfl⟩ :
      ((ZMod (n ^ (s + 1)))ˣ × ((ZMod n)ˣ × (ZMod n)ˣ) × (ZMod n)ˣ × ((Fin L → (ZMod n)ˣ) ×
        (Fin L → (ZMod n)ˣ × (ZMod n)ˣ) × (Fin N → (ZMod n)ˣ) × C)) ≃
      (Env n s N C × ((ZMod n)ˣ × (ZMod n)ˣ) × (Fin L → (ZMod n)ˣ) ×
        (Fin L → (ZMod n)ˣ × (ZMod n)ˣ)))]
    rfl

/-- What is drawn besides the masks. -/
abbrev Env' (n s L N : Nat) (C : Type) : Type :=
  (ZMod (n ^ (s + 1)))ˣ × (ZMod n)ˣ × (Fin L → (ZMod n)ˣ) × (Fin N → (ZMod n)ˣ) × C

/-- Second step: masks that are squares of random units. -/
theorem dcr_step [Fintype C] [Nonempty C] (right : Bool) (j : Fin N) :
    prob (fun t : Env n s N C × (Fin L → (ZMod n)ˣ × (ZMod n)ˣ) =>
        play A right j (gen n s t.1.1) (pw (gen n s t.1.1) t.1.2.1) t.1.2.2.1 t.1.2.2.2
          fun i => (pw (gen n s t.1.1) (t.2 i).1, residue n s (t.2 i).2 ^ 2)) -
      prob (fun t : Env' n s L N C × (Fin L → (ZMod (n ^ (s + 1)))ˣ) =>
        play A right j (gen n s t.1.1) (pw (gen n s t.1.1) t.1.2.1) t.1.2.2.2.1 t.1.2.2.2.2
          fun i => (pw (gen n s t.1.1) (t.1.2.2.1 i), (t.2 i : ZMod (n ^ (s + 1))) ^ 2)) =
      ∑ k : Fin L, dcrAdv n s (dcrAlg A right j k) := by
  have e1 : prob (fun t : Env n s N C × (Fin L → (ZMod n)ˣ × (ZMod n)ˣ) =>
        play A right j (gen n s t.1.1) (pw (gen n s t.1.1) t.1.2.1) t.1.2.2.1 t.1.2.2.2
          fun i => (pw (gen n s t.1.1) (t.2 i).1, residue n s (t.2 i).2 ^ 2)) =
      prob (fun t : Env' n s L N C × (Fin L → (ZMod n)ˣ) =>
        play A right j (gen n s t.1.1) (pw (gen n s t.1.1) t.1.2.1) t.1.2.2.2.1 t.1.2.2.2.2
          fun i => (pw (gen n s t.1.1) (t.1.2.2.1 i), residue n s (t.2 i) ^ 2)) := by
    rw [← prob_equiv (⟨fun t => ((t.1.1, t.1.2.1, t.1.2.2.2.1, t.1.2.2.2.2),
        fun i => (t.1.2.2.1 i, t.2 i)),
      fun t => ((t.1.1, t.1.2.1, fun i => (t.2 i).1, t.1.2.2.1, t.1.2.2.2), fun i => (t.2 i).2),
      fun _ => rfl, fun _ => rfl⟩ : (Env' n s L N C × (Fin L → (ZMod n)ˣ)) ≃
        (Env n s N C × (Fin L → (ZMod n)ˣ × (ZMod n)ˣ)))]
    rfl
  rw [e1, hybrid_env (K := Env' n s L N C)
    (fun t i (x : (ZMod n)ˣ) => (pw (gen n s t.1) (t.2.2.1 i), residue n s x ^ 2))
    (fun t i (x : (ZMod (n ^ (s + 1)))ˣ) =>
      (pw (gen n s t.1) (t.2.2.1 i), (x : ZMod (n ^ (s + 1))) ^ 2))
    (fun t v => play A right j (gen n s t.1) (pw (gen n s t.1) t.2.1) t.2.2.2.1 t.2.2.2.2 v)]
  refine Finset.sum_congr rfl fun k _ => ?_
  have push : ∀ (t : Env' n s L N C) (z : ZMod (n ^ (s + 1))) (a : Fin L → (ZMod n)ˣ)
      (b : Fin L → (ZMod (n ^ (s + 1)))ˣ) (v : Fin L → ZMod (n ^ (s + 1)) × ZMod (n ^ (s + 1))),
      (∀ i, v i = (pw (gen n s t.1) (t.2.2.1 i), if i < k then (b i : ZMod (n ^ (s + 1))) ^ 2
        else if i = k then z ^ 2 else residue n s (a i) ^ 2)) →
      (play A right j (gen n s t.1) (pw (gen n s t.1) t.2.1) t.2.2.2.1 t.2.2.2.2 v ↔
        dcrAlg A right j k z (t, a, b)) := by
    intro t z a b v hv
    rw [show v = _ from funext hv]
    rfl
  unfold dcrAdv dcrReal dcrRand
  congr 1
  · rw [← prob_equiv (⟨fun t => (t.2.1, t.1, t.2.2), fun t => (t.2.1, t.1, t.2.2), fun _ => rfl,
        fun _ => rfl⟩ : ((ZMod n)ˣ × Env' n s L N C × (Fin L → (ZMod n)ˣ) ×
            (Fin L → (ZMod (n ^ (s + 1)))ˣ)) ≃
          (Env' n s L N C × (ZMod n)ˣ × (Fin L → (ZMod n)ˣ) × (Fin L → (ZMod (n ^ (s + 1)))ˣ)))]
    apply prob_congr
    rintro ⟨z, t, a, b⟩
    apply push
    intro i
    dsimp only [Equiv.coe_fn_mk]
    split_ifs <;> rfl
  · rw [← prob_equiv (⟨fun t => (t.2.1, t.1, t.2.2), fun t => (t.2.1, t.1, t.2.2), fun _ => rfl,
        fun _ => rfl⟩ : ((ZMod (n ^ (s + 1)))ˣ × Env' n s L N C × (Fin L → (ZMod n)ˣ) ×
            (Fin L → (ZMod (n ^ (s + 1)))ˣ)) ≃
          (Env' n s L N C × (ZMod (n ^ (s + 1)))ˣ × (Fin L → (ZMod n)ˣ) ×
            (Fin L → (ZMod (n ^ (s + 1)))ˣ)))]
    apply prob_congr
    rintro ⟨z, t, a, b⟩
    apply push
    intro i
    dsimp only [Equiv.coe_fn_mk]
    split_ifs <;> rfl

/-! ### Random masks -/

/-- Where the one function that is exchanged matters. -/
theorem run_set {Q X : Type} (ask : List X → Q) :
    ∀ (fs : List (Q → X)) (sofar : List X) (j : Nat), j < fs.length →
      ∃ (q : Q) (h : X → List X), ∀ f, run ask (fs.set j f) sofar = h (f q)
  | [], sofar, j, hj => by simp at hj
  | f0 :: fs, sofar, 0, _ =>
    ⟨ask sofar, fun c => run ask fs (sofar ++ [c]), fun f => rfl⟩
  | f0 :: fs, sofar, j + 1, hj => by
    obtain ⟨q, h, hh⟩ := run_set ask fs (sofar ++ [f0 (ask sofar)]) j (by simpa using hj)
    exact ⟨q, h, fun f => hh f⟩

theorem run_update {Q X : Type} (ask : List X → Q) {N : Nat} (fs : Fin N → Q → X) (j : Fin N) :
    ∃ (q : Q) (h : X → List X),
      ∀ f, run ask (List.ofFn fun i => if i = j then f else fs i) [] = h (f q) := by
  obtain ⟨q, h, hh⟩ := run_set ask (List.ofFn fs) [] j.val (by simp)
  refine ⟨q, h, fun f => ?_⟩
  rw [← hh f]
  congr 1
  apply List.ext_getElem
  · simp
  · intro n h1 h2
    simp only [List.getElem_ofFn, List.getElem_set]
    by_cases hn : j.val = n
    · rw [if_pos hn, if_pos (Fin.ext hn.symm)]
    · rw [if_neg hn, if_neg (fun h => hn (by rw [← h]))]

/-- `1 + n` is a square modulo `n^(s+1)` in a strong sense: any quotient of its powers is the square
of a unit. -/
theorem carrier_square (hodd : n % 2 = 1) (m m' : Nat) :
    ∃ c : (ZMod (n ^ (s + 1)))ˣ, (c : ZMod (n ^ (s + 1))) ^ 2 * carrier n s m' = carrier n s m := by
  obtain ⟨κ, hκ⟩ := carrier_isUnit n s 1
  have hp : ∀ k, carrier n s k = ((κ ^ k : (ZMod (n ^ (s + 1)))ˣ) : ZMod (n ^ (s + 1))) := by
    intro k
    rw [Units.val_pow_eq_pow_val, hκ]
    simp [carrier]
  have h1 : κ ^ n ^ s = 1 := by
    apply Units.ext
    rw [Units.val_pow_eq_pow_val, hκ, Units.val_one]
    have := DJ.one_add_pow_period n (n : Int) dvd_rfl s (x := n ^ s) (y := 0)
      (by simp [Nat.ModEq])
    have := (ZMod.intCast_eq_intCast_iff ((1 + (n : Int)) ^ n ^ s) ((1 + (n : Int)) ^ 0)
      (n ^ (s + 1))).2 (by push_cast; exact this)
    push_cast at this
    simpa [carrier] using this
  have hs : n ^ s + 1 = ((n ^ s + 1) / 2) * 2 := by
    have : (n ^ s) % 2 = 1 := by rw [Nat.pow_mod, hodd]; simp
    omega
  refine ⟨(κ ^ m * (κ ^ m')⁻¹) ^ ((n ^ s + 1) / 2), ?_⟩
  rw [hp, hp, ← Units.val_pow_eq_pow_val, ← Units.val_mul]
  congr 1
  have h2 : (κ ^ m * (κ ^ m')⁻¹) ^ n ^ s = 1 := by
    rw [mul_pow, inv_pow, ← pow_mul, ← pow_mul, mul_comm m, mul_comm m', pow_mul, pow_mul, h1]
    simp
  rw [← pow_mul, ← hs, pow_succ (κ ^ m * (κ ^ m')⁻¹) (n ^ s), h2]
  simp

/-- With squares of random units as masks it does not matter which vector is encrypted. -/
theorem mask_same (hodd : n % 2 = 1) [Fintype C] (j : Fin N) :
    prob (fun t : Env' n s L N C × (Fin L → (ZMod (n ^ (s + 1)))ˣ) =>
        play A false j (gen n s t.1.1) (pw (gen n s t.1.1) t.1.2.1) t.1.2.2.2.1 t.1.2.2.2.2
          fun i => (pw (gen n s t.1.1) (t.1.2.2.1 i), (t.2 i : ZMod (n ^ (s + 1))) ^ 2)) =
      prob (fun t : Env' n s L N C × (Fin L → (ZMod (n ^ (s + 1)))ˣ) =>
        play A true j (gen n s t.1.1) (pw (gen n s t.1.1) t.1.2.1) t.1.2.2.2.1 t.1.2.2.2.2
          fun i => (pw (gen n s t.1.1) (t.1.2.2.1 i), (t.2 i : ZMod (n ^ (s + 1))) ^ 2)) := by
  rw [prob_prod (fun (k : Env' n s L N C) (t : Fin L → (ZMod (n ^ (s + 1)))ˣ) =>
      play A false j (gen n s k.1) (pw (gen n s k.1) k.2.1) k.2.2.2.1 k.2.2.2.2
        fun i => (pw (gen n s k.1) (k.2.2.1 i), (t i : ZMod (n ^ (s + 1))) ^ 2)),
    prob_prod (fun (k : Env' n s L N C) (t : Fin L → (ZMod (n ^ (s + 1)))ˣ) =>
      play A true j (gen n s k.1) (pw (gen n s k.1) k.2.1) k.2.2.2.1 k.2.2.2.2
        fun i => (pw (gen n s k.1) (k.2.2.1 i), (t i : ZMod (n ^ (s + 1))) ^ 2))]
  congr 1
  refine Finset.sum_congr rfl fun k _ => ?_
  obtain ⟨h, r, x, rs, c⟩ := k
  dsimp only
  obtain ⟨q, f, hf⟩ := run_update (A.ask (pkOf (gen n s h) fun i => pw (gen n s h) (x i)) c)
    (fun i q => encR (pw (gen n s h) (rs i)) (fun l => pw (pw (gen n s h) (x l)) (rs i))
      (pick (decide (i < j)) q)) j
  have hq : ∀ right (w : Fin L → ZMod (n ^ (s + 1))),
      play A right j (gen n s h) (pw (gen n s h) r) rs c (fun i => (pw (gen n s h) (x i), w i)) ↔
      A.yes (pkOf (gen n s h) fun i => pw (gen n s h) (x i)) c
        (f (encR (pw (gen n s h) r) w (pick right q))) := by
    intro right w
    unfold play
    rw [← hf fun q => encR (pw (gen n s h) r) w (pick right q)]
    apply iff_of_eq
    congr 3
    funext i q
    split <;> rfl
  choose d hd using fun i : Fin L =>
    carrier_square (s := s) hodd ((pick false q).getD i 0).toNat ((pick true q).getD i 0).toNat
  rw [← prob_equiv (Equiv.piCongrRight fun i : Fin L => Equiv.mulLeft (d i)) (fun t =>
    play A true j (gen n s h) (pw (gen n s h) r) rs c
      fun i => (pw (gen n s h) (x i), (t i : ZMod (n ^ (s + 1))) ^ 2))]
  apply prob_congr
  intro t
  rw [hq, hq]
  apply iff_of_eq
  congr 2
  unfold encR
  congr 2
  funext i
  congr 2
  simp only [Equiv.piCongrRight_apply, Pi.map_apply, Equiv.coe_mulLeft, Units.val_mul, mul_pow]
  rw [← hd i]
  ring

/-! ### C121 -/

/-- **C121**.  What a spy says in the left and in the right game differs by at most the advantages of
`2 N L` algorithms against Diffie-Hellman and of `2 N L` algorithms against composite residuosity,
all written out above. -/
theorem C121_hides (cfg : ExpCfg) (hn : 1 < n) (hodd : n % 2 = 1)
    (hco : ∀ i : Nat, 1 ≤ i → i ≤ s → Nat.Coprime i n) [Fintype C] [Nonempty C] (hA : A.Fair L)
    (N : Nat) :
    |game cfg n s L A N false - game cfg n s L A N true| ≤
      ∑ j : Fin N, ∑ k : Fin L,
        (|dhAdv n s (dhAlg (L := L) A false j k)| + |dcrAdv n s (dcrAlg (L := L) A false j k)| +
          (|dhAdv n s (dhAlg (L := L) A true j k)| + |dcrAdv n s (dcrAlg (L := L) A true j k)|)) := by
  rw [game_hyb A cfg hn hodd hco hA, game_hyb A cfg hn hodd hco hA]
  have tel : prob (hyb (n := n) (s := s) (L := L) (N := N) A 0) -
      prob (hyb (n := n) (s := s) (L := L) (N := N) A N) =
      ∑ j : Fin N, (prob (hyb (n := n) (s := s) (L := L) (N := N) A j.val) -
        prob (hyb (n := n) (s := s) (L := L) (N := N) A (j.val + 1))) := by
    have : ∀ k, prob (hyb (n := n) (s := s) (L := L) (N := N) A 0) -
        prob (hyb (n := n) (s := s) (L := L) (N := N) A k) =
        ∑ j ∈ Finset.range k, (prob (hyb (n := n) (s := s) (L := L) (N := N) A j) -
          prob (hyb (n := n) (s := s) (L := L) (N := N) A (j + 1))) := by
      intro k
      rw [Finset.sum_range_sub']
    rw [this N, Finset.sum_range]
  simp only [Bool.false_eq_true, if_false, if_true]
  rw [tel]
  refine (Finset.abs_sum_le_sum_abs _ _).trans (Finset.sum_le_sum fun j _ => ?_)
  have r0 := hyb_play (n := n) (s := s) (L := L) A false j
  have r1 := hyb_play (n := n) (s := s) (L := L) A true j
  simp only [Bool.false_eq_true, if_false, if_true] at r0 r1
  have d0 := dh_step (n := n) (s := s) (L := L) A false j
  have d1 := dh_step (n := n) (s := s) (L := L) A true j
  have c0 := dcr_step (n := n) (s := s) (L := L) A false j
  have c1 := dcr_step (n := n) (s := s) (L := L) A true j
  have m := mask_same (n := n) (s := s) (L := L) A hodd j
  rw [r0, r1]
  have ab : ∀ f : Fin L → ℚ, |∑ k : Fin L, f k| ≤ ∑ k : Fin L, |f k| := fun f =>
    Finset.abs_sum_le_sum_abs _ _
  have a0 := ab fun k => dhAdv n s (dhAlg A false j k)
  have a1 := ab fun k => dhAdv n s (dhAlg A true j k)
  have b0 := ab fun k => dcrAdv n s (dcrAlg A false j k)
  have b1 := ab fun k => dcrAdv n s (dcrAlg A true j k)
  simp only [Finset.sum_add_distrib]
  rw [abs_le] at *
  constructor <;> linarith [a0.1, a0.2, a1.1, a1.2, b0.1, b0.2, b1.1, b1.2]

end

/-- **C121, negation for randomness given by the caller**.  `EncryptWithRand` accepts 0, and then
the ciphertext does not depend on the key and shows the messages. -/
theorem C121_zero_fails (cfg : ExpCfg) (n s : Nat) (hn : 1 < n) (g : Int) (ys : List Int)
    (pub : CsPublic) (hp : Cs.newPublic cfg n s g ys = .ok pub) (ms : List Int)
    (hl : ms.length ≤ ys.length) (h0 : ∀ m ∈ ms, 0 ≤ m) :
    Cs.encryptWithRand pub ms 0 = .ok ⟨1, (List.range ys.length).map fun i =>
      (1 + (n : Int)) ^ (ms.getD i 0).toNat % (n : Int) ^ (s + 1)⟩ := by
  rw [Bb.encryptWithRand_ok (Cs.newPublic_good (by omega) hp) hl h0 le_rfl (Or.inr rfl)]
  have h1 : (1 : Int) % (n : Int) ^ (s + 1) = 1 := by
    apply Int.emod_eq_of_lt (by norm_num)
    exact one_lt_pow₀ (by exact_mod_cast hn) (by omega)
  simp [Bb.encP, h1]

/-! ### Examples -/

/-- A spy on two components who asks for an encryption of `(2)` or `(5, 7)`, then for one of numbers
read off the answer, and looks at the last answer. -/
def toySpy : Spy (Fin 3) where
  ask _ c l := match l with
    | [] => ([2], [5, 7])
    | a :: _ => ([c.val], [a.u.natAbs, 0])
  yes pk _ l := match l with
    | [a, b] => a.u + b.u = pk.g
    | _ => False

instance : ∀ pk c l, Decidable (toySpy.yes pk c l) := fun _ _ l => by
  unfold toySpy; dsimp only; split <;> infer_instance

theorem toySpy_fair : toySpy.Fair 2 := by
  intro pk c l
  cases l <;> simp [toySpy]

example := C121_hides (n := 35) (s := 2) toySpy ⟨true, 6⟩ (by decide) (by decide)
  (fun i h1 h2 => by interval_cases i <;> decide) toySpy_fair 2

/-- The bound is not met by everybody: for the modulus 3 the residues are known. -/
def toyBreaker : Spy Unit where
  ask _ _ _ := ([0], [1])
  yes _ _ l := l.map (fun c => c.es) = [[1]]

instance : ∀ pk c l, Decidable (toyBreaker.yes pk c l) := fun _ _ _ => by
  unfold toyBreaker; infer_instance

example : game ⟨false, 0⟩ 3 1 1 toyBreaker 1 false = 1 ∧
    game ⟨false, 0⟩ 3 1 1 toyBreaker 1 true = 0 := by
  have hc : Fintype.card ((ZMod (3 ^ (1 + 1)))ˣ × (Fin 1 → (ZMod 3)ˣ) × (Fin 1 → (ZMod 3)ˣ) × Unit) =
      24 := by decide +kernel
  constructor <;> unfold game prob
  · rw [show (Finset.univ.filter fun t : (ZMod (3 ^ (1 + 1)))ˣ × (Fin 1 → (ZMod 3)ˣ) ×
        (Fin 1 → (ZMod 3)ˣ) × Unit => saysYes toyBreaker t.2.2.2 (view ⟨false, 0⟩ 3 1 toyBreaker false
          (drawn t.1) (List.ofFn fun i => drawn (t.2.1 i)) (List.ofFn fun i => drawn (t.2.2.1 i))
          t.2.2.2)).card = 24 by decide +kernel, hc]
    norm_num
  · rw [show (Finset.univ.filter fun t : (ZMod (3 ^ (1 + 1)))ˣ × (Fin 1 → (ZMod 3)ˣ) ×
        (Fin 1 → (ZMod 3)ˣ) × Unit => saysYes toyBreaker t.2.2.2 (view ⟨false, 0⟩ 3 1 toyBreaker true
          (drawn t.1) (List.ofFn fun i => drawn (t.2.1 i)) (List.ofFn fun i => drawn (t.2.2.1 i))
          t.2.2.2)).card = 0 by decide +kernel]
    norm_num

example : ∃ pub, Cs.newPublic ⟨false, 0⟩ 15 1 4 [16, 31] = .ok pub ∧
    Cs.encryptWithRand pub [2] 0 = .ok ⟨1, [31, 1]⟩ :=
  ⟨_, rfl, by decide +kernel⟩

end PJC.CsCpa
