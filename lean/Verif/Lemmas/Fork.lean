import Verif.Lemmas.Oracle
import Mathlib.Algebra.Order.Chebyshev
/-
The forking lemma: running a program a second time with other hash values from a certain question
on.
-/
namespace PJC.Oracle
open Finset PJC.Prob

namespace Prog
variable {X Y A : Type} [DecidableEq X]

/-- What the program asks before it first asks for `x` (everything it asks, if it never does). -/
def before (o : X → Y) (x : X) : Prog X Y A → List X
  | out _ => []
  | ask z k => if z = x then [] else z :: before o x (k (o z))

/-- The hash function of the second run: as in the first run for what was asked before `x`, as `g`
says from then on. -/
def rewind (P : Prog X Y A) (o g : X → Y) (x z : X) : Y := if z ∈ P.before o x then o z else g z

theorem not_mem_before (o : X → Y) (x : X) (P : Prog X Y A) : x ∉ P.before o x := by
  induction P with
  | out a => simp [before]
  | ask z k ih =>
    unfold before
    split
    · simp
    · rename_i h
      simp only [List.mem_cons, not_or]
      exact ⟨fun e => h e.symm, ih _⟩

theorem rewind_self (P : Prog X Y A) (o g : X → Y) (x : X) : P.rewind o g x x = g x := by
  simp [rewind, not_mem_before]

end Prog

theorem prob_and {α β : Type} [Fintype α] [Fintype β] (S : α → Prop) (T : β → Prop)
    [DecidablePred S] [DecidablePred T] :
    prob (fun t : α × β => S t.1 ∧ T t.2) = prob S * prob T := by
  unfold prob
  have : (univ.filter fun t : α × β => S t.1 ∧ T t.2) = univ.filter S ×ˢ univ.filter T := by
    ext ⟨a, b⟩
    simp
  rw [this, card_product, Fintype.card_prod]
  push_cast
  rw [div_mul_div_comm]

theorem prob_or_disjoint {α : Type} [Fintype α] (S T : α → Prop) [DecidablePred S] [DecidablePred T]
    (h : ∀ a, S a → ¬ T a) : prob (fun a => S a ∨ T a) = prob S + prob T := by
  classical
  unfold prob
  rw [← add_div, filter_or, card_union_of_disjoint, Nat.cast_add]
  exact disjoint_filter.2 fun a _ => h a

variable {X Y A : Type} [DecidableEq X] [Fintype Y] [Nonempty Y]

/-- The run on `o` ends with an output for the question `x` that is accepted. -/
def Wins (target : A → Option X) (acc : A → Y → Prop) (P : Prog X Y A) (o : X → Y) (x : X) : Prop :=
  target (P.run o) = some x ∧ acc (P.run o) (o x)

theorem Wins.unique {target : A → Option X} {acc : A → Y → Prop} {P : Prog X Y A} {o : X → Y}
    {x x' : X} (h : Wins target acc P o x) (h' : Wins target acc P o x') : x = x' := by
  have := h.1.symm.trans h'.1
  cases this; rfl

open scoped Classical in
theorem prob_win_split (target : A → Option X) (acc : A → Y → Prop) (x : X) (k : Y → Prog X Y A)
    {D : Finset X} (hx : x ∈ D) (B : X → Y) :
    prob (fun f : D → Y => ∃ z ∈ D, Wins target acc (.ask x k) (graft B D f) z) =
      prob (fun f : D → Y => Wins target acc (.ask x k) (graft B D f) x) +
      (∑ y, prob (fun f : D.erase x → Y => ∃ z ∈ D.erase x,
        Wins target acc (k y) (graft (Function.update B x y) (D.erase x) f) z)) / Fintype.card Y := by
  rw [← prob_prod (fun y f => ∃ z ∈ D.erase x,
        Wins target acc (k y) (graft (Function.update B x y) (D.erase x) f) z)]
  have e : prob (fun t : Y × (D.erase x → Y) => ∃ z ∈ D.erase x,
        Wins target acc (k t.1) (graft (Function.update B x t.1) (D.erase x) t.2) z) =
      prob (fun f : D → Y => ∃ z ∈ D.erase x, Wins target acc (.ask x k) (graft B D f) z) := by
    rw [prob_split hx]
    apply prob_congr
    intro t
    have e := graft_split B hx ((split hx).symm t)
    rw [Equiv.apply_symm_apply] at e
    have ex : graft B D ((split hx).symm t) x = t.1 := by rw [e]; simp [graft]
    simp only [Wins, Prog.run, ex]
    rw [e]
  rw [e, ← prob_or_disjoint]
  · apply prob_congr
    intro f
    constructor
    · rintro ⟨z, hz, hw⟩
      by_cases h : z = x
      · subst h; exact Or.inl hw
      · exact Or.inr ⟨z, mem_erase.2 ⟨h, hz⟩, hw⟩
    · rintro (hw | ⟨z, hz, hw⟩)
      · exact ⟨x, hx, hw⟩
      · exact ⟨z, mem_of_mem_erase hz, hw⟩
  · rintro f hw ⟨z, hz, hw'⟩
    exact (mem_erase.1 hz).1 (hw'.unique hw)

/-- Two runs that share the beginning. -/
def Twice (target : A → Option X) (acc : A → Y → Prop) (P : Prog X Y A) (o g : X → Y) (x : X) :
    Prop :=
  Wins target acc P o x ∧ Wins target acc P (P.rewind o g x) x

theorem rewind_ask {k : Y → Prog X Y A} {x z : X} (hz : z ≠ x) (o g g' : X → Y)
    (hg : ∀ w, w ≠ x → g w = g' w) (hx : g' x = o x) :
    (Prog.ask x k).rewind o g z = (k (o x)).rewind o g' z := by
  funext w
  unfold Prog.rewind
  have hb : (Prog.ask x k).before o z = x :: (k (o x)).before o z := by
    rw [Prog.before]; exact if_neg fun e => hz e.symm
  rw [hb]
  by_cases hw : w = x
  · subst hw
    by_cases h : w ∈ (k (o w)).before o z <;> simp [h, hx]
  · by_cases h : w ∈ (k (o x)).before o z <;> simp [h, hw, hg w hw]

open scoped Classical in
/-- The two runs win for the same question with probability at least `a² / (Q + 1)`, when one run
wins with probability `a`. -/
theorem twice_bound (target : A → Option X) (acc : A → Y → Prop) (P : Prog X Y A) :
    ∀ (Q : Nat) (D : Finset X) (B : X → Y), P.AsksAtMost Q →
    prob (fun f : D → Y => ∃ x ∈ D, Wins target acc P (graft B D f) x) ^ 2 / (Q + 1) ≤
      prob (fun t : (D → Y) × (D → Y) => ∃ x ∈ D,
        Twice target acc P (graft B D t.1) (graft B D t.2) x) := by
  induction P with
  | out a =>
    intro Q D B _
    have h0 := prob_nonneg (fun f : D → Y => ∃ x ∈ D, Wins target acc (.out a) (graft B D f) x)
    refine le_trans (div_le_self (by positivity) (by
      have : (0 : ℚ) ≤ Q := Nat.cast_nonneg Q
      linarith)) ?_
    rw [sq, ← prob_and]
    apply prob_mono
    rintro ⟨f, g⟩ ⟨⟨x, hx, hw⟩, ⟨x', _, hw'⟩⟩
    have : x' = x := by
      have := hw.1.symm.trans hw'.1
      cases this; rfl
    subst this
    refine ⟨x', hx, hw, ?_⟩
    have : (Prog.out a : Prog X Y A).rewind (graft B D f) (graft B D g) x' = graft B D g := by
      funext z; simp [Prog.rewind, Prog.before]
    rw [this]
    exact hw'
  | ask x k ih =>
    intro Q D B hQ
    cases Q with
    | zero => exact hQ.elim
    | succ Q =>
    by_cases hx : x ∈ D
    · rw [prob_win_split target acc x k hx B]
      set w := prob (fun f : D → Y => Wins target acc (.ask x k) (graft B D f) x) with hw
      set a : Y → ℚ := fun y => prob (fun f : D.erase x → Y => ∃ z ∈ D.erase x,
        Wins target acc (k y) (graft (Function.update B x y) (D.erase x) f) z) with ha
      set b : Y → ℚ := fun y => prob (fun t : (D.erase x → Y) × (D.erase x → Y) =>
        ∃ z ∈ D.erase x, Twice target acc (k y) (graft (Function.update B x y) (D.erase x) t.1)
          (graft (Function.update B x y) (D.erase x) t.2) z) with hb
      have hab : ∀ y, a y ^ 2 / (Q + 1) ≤ b y := fun y =>
        ih y Q (D.erase x) (Function.update B x y) (hQ y)
      have hlow : w ^ 2 + (∑ y, b y) / Fintype.card Y ≤
          prob (fun t : (D → Y) × (D → Y) => ∃ z ∈ D,
            Twice target acc (.ask x k) (graft B D t.1) (graft B D t.2) z) := by
        have e1 : w ^ 2 = prob (fun t : (D → Y) × (D → Y) =>
            Wins target acc (.ask x k) (graft B D t.1) x ∧
              Wins target acc (.ask x k) (graft B D t.2) x) := by
          rw [sq, ← prob_and]
        have e2 : (∑ y, b y) / Fintype.card Y = prob (fun t : (D → Y) × (D → Y) => ∃ z ∈ D.erase x,
            Twice target acc (.ask x k) (graft B D t.1) (graft B D t.2) z) := by
          rw [hb, ← prob_prod (fun y (t : (D.erase x → Y) × (D.erase x → Y)) =>
            ∃ z ∈ D.erase x, Twice target acc (k y) (graft (Function.update B x y) (D.erase x) t.1)
              (graft (Function.update B x y) (D.erase x) t.2) z)]
          let E : (D → Y) × (D → Y) ≃ (Y × ((D.erase x → Y) × (D.erase x → Y))) × Y :=
            { toFun := fun t => (((split hx t.1).1, (split hx t.1).2, (split hx t.2).2),
                (split hx t.2).1)
              invFun := fun t => ((split hx).symm (t.1.1, t.1.2.1), (split hx).symm (t.2, t.1.2.2))
              left_inv := fun t => by simp
              right_inv := fun t => by simp }
          rw [← prob_fst (β := Y) (fun t : Y × ((D.erase x → Y) × (D.erase x → Y)) =>
            ∃ z ∈ D.erase x, Twice target acc (k t.1)
              (graft (Function.update B x t.1) (D.erase x) t.2.1)
              (graft (Function.update B x t.1) (D.erase x) t.2.2) z), ← prob_equiv E]
          apply prob_congr
          rintro ⟨f, g⟩
          have ef := graft_split B hx f
          have eg := graft_split B hx g
          have ex : graft B D f x = (split hx f).1 := by rw [ef]; simp [graft]
          show (∃ z ∈ D.erase x, Twice target acc (k (split hx f).1)
              (graft (Function.update B x (split hx f).1) (D.erase x) (split hx f).2)
              (graft (Function.update B x (split hx f).1) (D.erase x) (split hx g).2) z) ↔ _
          rw [← ef]
          set g' := graft (Function.update B x (split hx f).1) (D.erase x) (split hx g).2 with hg'
          have hg1 : ∀ w, w ≠ x → graft B D g w = g' w := by
            intro w hw
            rw [eg, hg']
            unfold graft
            simp [hw]
          have hg2 : g' x = graft B D f x := by
            rw [ex, hg']; simp [graft]
          apply exists_congr
          intro z
          apply and_congr_right
          intro hz
          have hzx := (mem_erase.1 hz).1
          have er := rewind_ask (k := k) hzx (graft B D f) (graft B D g) g' hg1 hg2
          unfold Twice Wins
          rw [er, ex]
          have e3 : (Prog.ask x k).run (graft B D f) = (k (split hx f).1).run (graft B D f) := by
            rw [Prog.run, ex]
          have e4 : (k (split hx f).1).rewind (graft B D f) g' z x = (split hx f).1 := by
            unfold Prog.rewind
            split
            · exact ex
            · rw [hg2, ex]
          have e5 : (Prog.ask x k).run ((k (split hx f).1).rewind (graft B D f) g' z) =
              (k (split hx f).1).run ((k (split hx f).1).rewind (graft B D f) g' z) := by
            rw [Prog.run, e4]
          rw [e3, e5]
        rw [e1, e2, ← prob_or_disjoint]
        · apply prob_mono
          rintro ⟨f, g⟩ (⟨h1, h2⟩ | ⟨z, hz, h⟩)
          · refine ⟨x, hx, h1, ?_⟩
            have : (Prog.ask x k).rewind (graft B D f) (graft B D g) x = graft B D g := by
              funext z; simp [Prog.rewind, Prog.before]
            rw [this]; exact h2
          · exact ⟨z, mem_of_mem_erase hz, h⟩
        · rintro ⟨f, g⟩ ⟨h1, -⟩ ⟨z, hz, h, -⟩
          exact (mem_erase.1 hz).1 (h.unique h1)
      refine le_trans ?_ hlow
      have hY : (0 : ℚ) < Fintype.card Y := by exact_mod_cast Fintype.card_pos
      have hQ1 : (0 : ℚ) < (Q : ℚ) + 1 := by positivity
      have hsum : (∑ y, a y) ^ 2 / (Fintype.card Y) ^ 2 / (Q + 1) ≤ (∑ y, b y) / Fintype.card Y := by
        have h1 : (∑ y, a y) ^ 2 ≤ Fintype.card Y * ∑ y, a y ^ 2 := by
          have := sq_sum_le_card_mul_sum_sq (s := (univ : Finset Y)) (f := a)
          rwa [card_univ] at this
        have h2 : (∑ y, a y ^ 2) / (Q + 1) ≤ ∑ y, b y := by
          rw [sum_div]; exact sum_le_sum fun y _ => hab y
        have h3 : ∑ y, a y ^ 2 ≤ (∑ y, b y) * (Q + 1) := (div_le_iff₀ hQ1).1 h2
        rw [div_div, div_le_div_iff₀ (by positivity) hY]
        calc (∑ y, a y) ^ 2 * Fintype.card Y
            ≤ (Fintype.card Y * ∑ y, a y ^ 2) * Fintype.card Y := by gcongr
          _ ≤ (Fintype.card Y * ((∑ y, b y) * (Q + 1))) * Fintype.card Y := by gcongr
          _ = (∑ y, b y) * ((Fintype.card Y) ^ 2 * (Q + 1)) := by ring
      refine le_trans ?_ (add_le_add_right hsum _)
      set u := (∑ y, a y) / (Fintype.card Y : ℚ) with hu
      rw [show (∑ y, a y) ^ 2 / (Fintype.card Y : ℚ) ^ 2 = u ^ 2 from by rw [hu, div_pow]]
      push_cast
      rw [div_le_iff₀ (by positivity)]
      have e : (w ^ 2 + u ^ 2 / (Q + 1)) * ((Q : ℚ) + 1 + 1) - (w + u) ^ 2 =
          ((Q + 1) * w - u) ^ 2 / (Q + 1) := by
        field_simp
        ring
      have : 0 ≤ ((Q + 1) * w - u) ^ 2 / ((Q : ℚ) + 1) := by positivity
      linarith
    · have e : ∀ o : X → Y, o x = B x → (Prog.ask x k).run o = (k (B x)).run o := by
        intro o ho
        rw [Prog.run, ho]
      have hw : ∀ f : D → Y, ∀ z, Wins target acc (.ask x k) (graft B D f) z ↔
          Wins target acc (k (B x)) (graft B D f) z := by
        intro f z
        unfold Wins
        rw [e _ (graft_not_mem B hx f)]
      have ht : ∀ (f g : D → Y), ∀ z ∈ D, Twice target acc (.ask x k) (graft B D f) (graft B D g) z ↔
          Twice target acc (k (B x)) (graft B D f) (graft B D g) z := by
        intro f g z hz
        have hzx : z ≠ x := fun h => hx (h ▸ hz)
        have hf := graft_not_mem B hx f
        have hg := graft_not_mem B hx g
        have er := rewind_ask (k := k) hzx (graft B D f) (graft B D g) (graft B D g) (fun _ _ => rfl)
          (hg.trans hf.symm)
        rw [hf] at er
        unfold Twice
        rw [hw, er]
        unfold Wins
        rw [e]
        unfold Prog.rewind
        split
        · exact hf
        · exact hg
      have e1 : prob (fun f : D → Y => ∃ z ∈ D, Wins target acc (.ask x k) (graft B D f) z) =
          prob (fun f : D → Y => ∃ z ∈ D, Wins target acc (k (B x)) (graft B D f) z) :=
        prob_congr fun f => exists_congr fun z => and_congr_right fun _ => hw f z
      have e2 : prob (fun t : (D → Y) × (D → Y) => ∃ z ∈ D,
            Twice target acc (.ask x k) (graft B D t.1) (graft B D t.2) z) =
          prob (fun t : (D → Y) × (D → Y) => ∃ z ∈ D,
            Twice target acc (k (B x)) (graft B D t.1) (graft B D t.2) z) :=
        prob_congr fun t => exists_congr fun z => and_congr_right fun hz => ht _ _ z hz
      rw [e1, e2]
      refine le_trans ?_ (ih (B x) Q D B (hQ _))
      push_cast
      apply div_le_div_of_nonneg_left (sq_nonneg _) (by positivity)
      linarith

open scoped Classical in
/-- **Forking**: the two runs win for the same question with different challenges with probability
at least `a (a / (Q + 1) - δ)`, when one run wins with probability `a` and each challenge has
probability at most `δ`. -/
theorem fork_bound {C : Type} [DecidableEq C] (χ : Y → C) {δ : ℚ} (hδ : ∀ c, prob (fun y => χ y = c) ≤ δ)
    (target : A → Option X) (acc : A → Y → Prop) (P : Prog X Y A) (Q : Nat) (D : Finset X)
    (B : X → Y) (hQ : P.AsksAtMost Q) {a : ℚ}
    (ha : a = prob (fun f : D → Y => ∃ x ∈ D, Wins target acc P (graft B D f) x)) :
    a * (a / (Q + 1) - δ) ≤ prob (fun t : (D → Y) × (D → Y) => ∃ x ∈ D,
      Twice target acc P (graft B D t.1) (graft B D t.2) x ∧
        χ (graft B D t.1 x) ≠ χ (graft B D t.2 x)) := by
  have h1 := twice_bound target acc P Q D B hQ
  rw [← ha] at h1
  have h2 : prob (fun t : (D → Y) × (D → Y) => ∃ x ∈ D, Wins target acc P (graft B D t.1) x ∧
      χ (graft B D t.1 x) = χ (graft B D t.2 x)) ≤ a * δ := by
    rw [prob_prod (fun f g : D → Y => ∃ x ∈ D, Wins target acc P (graft B D f) x ∧
      χ (graft B D f x) = χ (graft B D g x))]
    have h3 : ∀ f : D → Y, prob (fun g : D → Y => ∃ x ∈ D, Wins target acc P (graft B D f) x ∧
        χ (graft B D f x) = χ (graft B D g x)) ≤
        if ∃ x ∈ D, Wins target acc P (graft B D f) x then δ else 0 := by
      intro f
      split
      · rename_i h
        obtain ⟨x, hx, hw⟩ := h
        refine le_trans (prob_mono fun g hg => ?_) ((prob_at hx fun y => χ y = χ (f ⟨x, hx⟩)).trans_le
          (hδ _))
        obtain ⟨z, hz, hw', e⟩ := hg
        have := hw'.unique hw
        subst this
        rw [graft_mem B hz, graft_mem B hz] at e
        exact e.symm
      · rename_i h
        have : prob (fun g : D → Y => ∃ x ∈ D, Wins target acc P (graft B D f) x ∧
            χ (graft B D f x) = χ (graft B D g x)) ≤ prob fun _ : D → Y => False :=
          prob_mono fun g ⟨x, hx, hw, _⟩ => h ⟨x, hx, hw⟩
        refine this.trans_eq ?_
        simp [prob]
    have hN : (0 : ℚ) < Fintype.card (D → Y) := by exact_mod_cast Fintype.card_pos
    rw [div_le_iff₀ hN]
    refine (sum_le_sum fun f _ => h3 f).trans_eq ?_
    rw [← sum_filter, sum_const, nsmul_eq_mul, ha]
    unfold prob
    field_simp
  have h4 : prob (fun t : (D → Y) × (D → Y) => ∃ x ∈ D,
      Twice target acc P (graft B D t.1) (graft B D t.2) x) ≤
      prob (fun t : (D → Y) × (D → Y) => ∃ x ∈ D,
        Twice target acc P (graft B D t.1) (graft B D t.2) x ∧
          χ (graft B D t.1 x) ≠ χ (graft B D t.2 x)) +
      prob (fun t : (D → Y) × (D → Y) => ∃ x ∈ D, Wins target acc P (graft B D t.1) x ∧
        χ (graft B D t.1 x) = χ (graft B D t.2 x)) := by
    refine le_trans (prob_mono fun t ht => ?_) (prob_or_le _ _)
    obtain ⟨x, hx, hw⟩ := ht
    by_cases h : χ (graft B D t.1 x) = χ (graft B D t.2 x)
    · exact Or.inr ⟨x, hx, hw.1, h⟩
    · exact Or.inl ⟨x, hx, hw, h⟩
  have : a * (a / (Q + 1) - δ) = a ^ 2 / (Q + 1) - a * δ := by ring
  rw [this]
  linarith

end PJC.Oracle
