import Verif.Lemmas.Prob
import Mathlib.Logic.Equiv.Basic
/-
Programs that ask a hash function, and the hash function as a random function.
-/
namespace PJC.Oracle
open Finset PJC.Prob

/-- A program that may ask for hash values: it gives its output, or it asks for the value at `x`
and goes on as the answer says.  (Its own coins are fixed in advance.) -/
inductive Prog (X Y A : Type) : Type
  | out (a : A) : Prog X Y A
  | ask (x : X) (k : Y → Prog X Y A) : Prog X Y A

namespace Prog
variable {X Y A : Type}

/-- The output when the hash function is `o`. -/
def run (o : X → Y) : Prog X Y A → A
  | out a => a
  | ask x k => run o (k (o x))

/-- At most `Q` questions, whatever the answers are. -/
def AsksAtMost : Nat → Prog X Y A → Prop
  | _, out _ => True
  | 0, ask _ _ => False
  | Q + 1, ask _ k => ∀ y, (k y).AsksAtMost Q

end Prog

variable {X Y A : Type} [DecidableEq X]

/-- The hash function that has the values `f` on `D` and those of `B` elsewhere. -/
def graft (B : X → Y) (D : Finset X) (f : D → Y) (x : X) : Y :=
  if h : x ∈ D then f ⟨x, h⟩ else B x

/-- A function on `D` is its value at `x` and a function on the rest. -/
def split {D : Finset X} {x : X} (hx : x ∈ D) : (D → Y) ≃ Y × (D.erase x → Y) where
  toFun f := (f ⟨x, hx⟩, fun z => f ⟨z.1, mem_of_mem_erase z.2⟩)
  invFun t := fun z => if h : z.1 = x then t.1 else t.2 ⟨z.1, mem_erase.2 ⟨h, z.2⟩⟩
  left_inv f := by
    funext z
    by_cases h : z.1 = x
    · have : z = ⟨x, hx⟩ := Subtype.ext h
      subst this; simp
    · simp [h]
  right_inv t := by
    refine Prod.ext (by simp) ?_
    funext z
    have := (mem_erase.1 z.2).1
    simp [this]

theorem graft_split (B : X → Y) {D : Finset X} {x : X} (hx : x ∈ D) (f : D → Y) :
    graft B D f = graft (Function.update B x (split hx f).1) (D.erase x) (split hx f).2 := by
  funext z
  unfold graft
  by_cases hz : z = x
  · subst hz; simp [hx, split]
  · by_cases hD : z ∈ D
    · simp [hz, hD, split]
    · simp [hz, hD]

theorem graft_mem (B : X → Y) {D : Finset X} {x : X} (hx : x ∈ D) (f : D → Y) :
    graft B D f x = f ⟨x, hx⟩ := by simp [graft, hx]

theorem graft_not_mem (B : X → Y) {D : Finset X} {x : X} (hx : x ∉ D) (f : D → Y) :
    graft B D f x = B x := by simp [graft, hx]

variable [Fintype Y] [Nonempty Y]

/-- A draw of a function, drawn value by value. -/
theorem prob_split {D : Finset X} {x : X} (hx : x ∈ D) (S : (D → Y) → Prop) [DecidablePred S] :
    prob S = prob fun t : Y × (D.erase x → Y) => S ((split hx).symm t) :=
  (prob_equiv (split hx).symm S).symm

theorem prob_at {D : Finset X} {x : X} (hx : x ∈ D) (S : Y → Prop) [DecidablePred S] :
    prob (fun f : D → Y => S (f ⟨x, hx⟩)) = prob S := by
  rw [prob_split hx, ← prob_fst (β := D.erase x → Y) S]
  apply prob_congr
  intro t
  simp [split]

/-- **The search for a bad hash value**: a program with at most `Q` questions names an input whose
hash value is bad for this input with probability at most `(Q + 1) β`, when a random value is bad
with probability at most `β` for each input. -/
theorem search_bound (bad : X → Y → Prop) [∀ x, DecidablePred (bad x)] {β : ℚ} (hβ0 : 0 ≤ β)
    (target : A → Option X) (P : Prog X Y A) :
    ∀ (Q : Nat) (D : Finset X) (B : X → Y), (∀ x ∈ D, prob (bad x) ≤ β) → P.AsksAtMost Q →
    ∀ (T : (D → Y) → Prop) [DecidablePred T],
    (∀ f, T f → ∃ x ∈ D, target (P.run (graft B D f)) = some x ∧ bad x (graft B D f x)) →
    prob T ≤ (Q + 1) * β := by
  classical
  induction P with
  | out a =>
    intro Q D B hβ _ T _ hT
    have h1 : β ≤ (Q + 1) * β := by nlinarith [(Nat.cast_nonneg Q : (0 : ℚ) ≤ Q)]
    by_cases hx : ∃ x ∈ D, target a = some x
    · obtain ⟨x, hx, hta⟩ := hx
      refine le_trans (le_trans (prob_mono fun f hf => ?_) (prob_at hx (bad x)).le) ((hβ x hx).trans h1)
      obtain ⟨z, hz, e1, e2⟩ := hT f hf
      simp only [Prog.run] at e1
      have : z = x := by rw [hta] at e1; cases e1; rfl
      subst this
      rwa [graft_mem B hz] at e2
    · have : prob T ≤ prob fun _ : D → Y => False := prob_mono fun f hf => by
        obtain ⟨z, hz, e1, -⟩ := hT f hf
        exact hx ⟨z, hz, e1⟩
      refine this.trans ?_
      simp only [prob, filter_false, card_empty, Nat.cast_zero, zero_div]
      positivity
  | ask x k ih =>
    intro Q D B hβ hQ T _ hT
    cases Q with
    | zero => exact hQ.elim
    | succ Q =>
    by_cases hx : x ∈ D
    · let S : Y → (D.erase x → Y) → Prop := fun y f =>
        ∃ z ∈ D.erase x, target ((k y).run (graft (Function.update B x y) (D.erase x) f)) = some z ∧
          bad z (graft (Function.update B x y) (D.erase x) f z)
      have h1 : prob (fun t : Y × (D.erase x → Y) => S t.1 t.2) ≤ (Q + 1) * β := by
        rw [prob_prod S]
        refine div_le_of_le_mul₀ (by positivity) (by positivity) ?_
        refine (sum_le_sum fun y _ => ih y Q (D.erase x) (Function.update B x y)
          (fun z hz => hβ z (mem_of_mem_erase hz)) (hQ y) (S y) fun f hf => hf).trans ?_
        rw [sum_const, card_univ, nsmul_eq_mul, mul_comm]
      have h2 : prob (fun t : Y × (D.erase x → Y) => bad x t.1) ≤ β := by
        rw [prob_fst]; exact hβ x hx
      rw [prob_split hx]
      refine (le_trans (prob_mono fun t ht => ?_) (prob_or_le _ _)).trans
        (add_le_add h2 h1) |>.trans (by push_cast; linarith)
      obtain ⟨z, hz, e1, e2⟩ := hT _ ht
      have e := graft_split B hx ((split hx).symm t)
      rw [Equiv.apply_symm_apply] at e
      have ex : graft B D ((split hx).symm t) x = t.1 := by rw [e]; simp [graft]
      simp only [Prog.run, ex] at e1
      rw [e] at e1 e2
      by_cases hzx : z = x
      · left
        rw [hzx] at e2
        simpa [graft] using e2
      · exact Or.inr ⟨z, mem_erase.2 ⟨hzx, hz⟩, e1, e2⟩
    · have e : ∀ f, (Prog.ask x k).run (graft B D f) = (k (B x)).run (graft B D f) := by
        intro f
        rw [Prog.run, graft_not_mem B hx]
      refine (ih (B x) Q D B hβ (hQ _) T fun f hf => ?_).trans (by push_cast; linarith)
      obtain ⟨z, hz, e1, e2⟩ := hT f hf
      rw [e] at e1
      exact ⟨z, hz, e1, e2⟩

end PJC.Oracle
