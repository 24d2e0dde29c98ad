import Mathlib.Data.Fintype.BigOperators
import Mathlib.Data.Fintype.Prod
import Mathlib.Data.Rat.Defs
import Mathlib.Algebra.Order.Field.Rat
import Mathlib.Algebra.BigOperators.Intervals
import Mathlib.Algebra.BigOperators.Fin
import Mathlib.Algebra.BigOperators.Field
import Mathlib.Tactic.FieldSimp
import Mathlib.Tactic.Ring
import Mathlib.Tactic.Linarith
import Mathlib.Tactic.Positivity
import Mathlib.Algebra.Order.AbsoluteValue.Basic
/-
Probabilities over finite sample spaces with equally likely outcomes.
-/
namespace PJC.Prob
open Finset

/-- The probability of `S` when all elements of `α` are equally likely. -/
def prob {α : Type} [Fintype α] (S : α → Prop) [DecidablePred S] : ℚ :=
  ((univ.filter S).card : ℚ) / (Fintype.card α : ℚ)

theorem prob_congr {α : Type} [Fintype α] {S T : α → Prop} [DecidablePred S] [DecidablePred T]
    (h : ∀ a, S a ↔ T a) : prob S = prob T := by
  unfold prob
  congr 3
  ext a
  simp [h a]

theorem prob_equiv {α β : Type} [Fintype α] [Fintype β] (e : α ≃ β) (S : β → Prop)
    [DecidablePred S] : prob (fun a => S (e a)) = prob S := by
  unfold prob
  rw [Fintype.card_congr e]
  congr 2
  apply card_bij (fun a _ => e a)
  · intro a ha
    simpa using ha
  · intro a _ b _ h
    exact e.injective h
  · intro b hb
    exact ⟨e.symm b, by simpa using hb, by simp⟩

/-- A draw that is not looked at does not matter. -/
theorem prob_fst {α β : Type} [Fintype α] [Fintype β] [Nonempty β] (S : α → Prop)
    [DecidablePred S] : prob (fun t : α × β => S t.1) = prob S := by
  unfold prob
  have : (univ.filter fun t : α × β => S t.1) = univ.filter S ×ˢ (univ : Finset β) := by
    ext ⟨a, b⟩
    simp
  rw [this, card_product, Fintype.card_prod, card_univ]
  push_cast
  have : (Fintype.card β : ℚ) ≠ 0 := by exact_mod_cast Fintype.card_ne_zero
  exact mul_div_mul_right _ _ this

theorem prob_snd {α β : Type} [Fintype α] [Fintype β] [Nonempty α] (S : β → Prop)
    [DecidablePred S] : prob (fun t : α × β => S t.2) = prob S := by
  rw [← prob_fst (β := α) S, ← prob_equiv (Equiv.prodComm α β)]
  rfl

/-- Exchanging a draw with one coordinate of a vector of draws. -/
def swapAt {N : Nat} {M : Type} (j : Fin N) : (M × (Fin N → M)) ≃ (M × (Fin N → M)) where
  toFun t := (t.2 j, Function.update t.2 j t.1)
  invFun t := (t.2 j, Function.update t.2 j t.1)
  left_inv t := by simp
  right_inv t := by simp

/-- Replacing one coordinate by a fresh draw does not matter. -/
theorem prob_update {N : Nat} {M : Type} [Fintype M] [Nonempty M] (j : Fin N)
    (S : (Fin N → M) → Prop) [DecidablePred S] :
    prob (fun t : M × (Fin N → M) => S (Function.update t.2 j t.1)) = prob S := by
  rw [← prob_snd (α := M) S]
  exact prob_equiv (swapAt j) fun t => S t.2

theorem prob_nonneg {α : Type} [Fintype α] (S : α → Prop) [DecidablePred S] : 0 ≤ prob S := by
  unfold prob; positivity

theorem prob_le_one {α : Type} [Fintype α] (S : α → Prop) [DecidablePred S] : prob S ≤ 1 := by
  unfold prob
  apply div_le_one_of_le₀ _ (by positivity)
  exact_mod_cast (card_filter_le _ _).trans_eq (card_univ (α := α))

theorem abs_prob_sub_le_one {α β : Type} [Fintype α] [Fintype β] (S : α → Prop) [DecidablePred S]
    (T : β → Prop) [DecidablePred T] : |prob S - prob T| ≤ 1 := by
  have := prob_nonneg S; have := prob_le_one S
  have := prob_nonneg T; have := prob_le_one T
  rw [abs_le]; constructor <;> linarith

/-- A probability over two independent draws is the mean of the probabilities over the second. -/
theorem prob_prod {α β : Type} [Fintype α] [Fintype β] (S : α → β → Prop) [∀ a b, Decidable (S a b)] :
    prob (fun t : α × β => S t.1 t.2) = (∑ a, prob (S a)) / Fintype.card α := by
  unfold prob
  have : (univ.filter fun t : α × β => S t.1 t.2).card = ∑ a, (univ.filter (S a)).card := by
    rw [← card_sigma]
    apply card_bij (fun t _ => (⟨t.1, t.2⟩ : (_ : α) × β))
    · intro t ht; simpa using ht
    · rintro ⟨a, b⟩ _ ⟨a', b'⟩ _ h
      cases h; rfl
    · rintro ⟨a, b⟩ h
      exact ⟨(a, b), by simpa using h, rfl⟩
  rw [this, Fintype.card_prod, ← sum_div, div_div]
  push_cast
  rw [mul_comm]

/-- Two draws exchanged. -/
theorem prob_comm {α β : Type} [Fintype α] [Fintype β] (S : α → β → Prop)
    [∀ a b, Decidable (S a b)] :
    prob (fun t : α × β => S t.1 t.2) = prob (fun t : β × α => S t.2 t.1) :=
  (prob_equiv (Equiv.prodComm β α) fun t => S t.1 t.2).symm

/-- The hybrid argument for vectors of independent entries: the entries are changed one by one. -/
theorem hybrid_sum {A B X : Type} [Fintype A] [Nonempty A] [Fintype B] [Nonempty B] {M : Nat}
    (f : Fin M → A → X) (g : Fin M → B → X) (S : (Fin M → X) → Prop) [DecidablePred S] :
    prob (fun a : Fin M → A => S fun i => f i (a i)) - prob (fun b : Fin M → B => S fun i => g i (b i))
      = ∑ j : Fin M,
        (prob (fun t : A × (Fin M → A) × (Fin M → B) => S fun i =>
            if i < j then g i (t.2.2 i) else if i = j then f i t.1 else f i (t.2.1 i)) -
          prob (fun t : B × (Fin M → A) × (Fin M → B) => S fun i =>
            if i < j then g i (t.2.2 i) else if i = j then g i t.1 else f i (t.2.1 i))) := by
  let hyb : Nat → ℚ := fun k => prob fun t : (Fin M → A) × (Fin M → B) =>
    S fun i => if i.val < k then g i (t.2 i) else f i (t.1 i)
  have h0 : prob (fun a : Fin M → A => S fun i => f i (a i)) = hyb 0 := by
    rw [← prob_fst (β := Fin M → B)]
    apply prob_congr
    intro t
    simp
  have hM : prob (fun b : Fin M → B => S fun i => g i (b i)) = hyb M := by
    rw [← prob_snd (α := Fin M → A)]
    apply prob_congr
    intro t
    simp
  have e1 : ∀ j : Fin M, prob (fun t : A × (Fin M → A) × (Fin M → B) => S fun i =>
      if i < j then g i (t.2.2 i) else if i = j then f i t.1 else f i (t.2.1 i)) = hyb j.val := by
    intro j
    let e : (A × (Fin M → A) × (Fin M → B)) ≃ (((Fin M → A) × (Fin M → B)) × A) :=
      { toFun := fun t => ((Function.update t.2.1 j t.1, t.2.2), t.2.1 j)
        invFun := fun t => (t.1.1 j, Function.update t.1.1 j t.2, t.1.2)
        left_inv := fun t => by simp
        right_inv := fun t => by simp }
    show _ = prob _
    rw [← prob_fst (β := A) (fun t : (Fin M → A) × (Fin M → B) =>
      S fun i => if i.val < j.val then g i (t.2 i) else f i (t.1 i)), ← prob_equiv e]
    apply prob_congr
    rintro ⟨x, a, b⟩
    apply iff_of_eq
    congr 1
    funext i
    by_cases hi : i = j
    · subst hi; simp [e]
    · simp [e, hi]
  have e2 : ∀ j : Fin M, prob (fun t : B × (Fin M → A) × (Fin M → B) => S fun i =>
      if i < j then g i (t.2.2 i) else if i = j then g i t.1 else f i (t.2.1 i)) =
      hyb (j.val + 1) := by
    intro j
    let e : (B × (Fin M → A) × (Fin M → B)) ≃ (((Fin M → A) × (Fin M → B)) × B) :=
      { toFun := fun t => ((t.2.1, Function.update t.2.2 j t.1), t.2.2 j)
        invFun := fun t => (t.1.2 j, t.1.1, Function.update t.1.2 j t.2)
        left_inv := fun t => by simp
        right_inv := fun t => by simp }
    show _ = prob _
    rw [← prob_fst (β := B) (fun t : (Fin M → A) × (Fin M → B) =>
      S fun i => if i.val < j.val + 1 then g i (t.2 i) else f i (t.1 i)), ← prob_equiv e]
    apply prob_congr
    rintro ⟨x, a, b⟩
    apply iff_of_eq
    congr 1
    funext i
    by_cases hi : i = j
    · subst hi; simp [e]
    · have hv : i.val ≠ j.val := fun h => hi (Fin.ext h)
      have hlt : (i.val < j.val + 1) ↔ i.val < j.val := by omega
      simp [e, hi, hlt]
  rw [h0, hM, Finset.sum_congr rfl fun j _ => by rw [e1 j, e2 j],
    Fin.sum_univ_eq_sum_range (fun j => hyb j - hyb (j + 1)) M, Finset.sum_range_sub']

theorem prob_mono {α : Type} [Fintype α] {S T : α → Prop} [DecidablePred S] [DecidablePred T]
    (h : ∀ a, S a → T a) : prob S ≤ prob T := by
  unfold prob
  apply div_le_div_of_nonneg_right _ (by positivity)
  exact_mod_cast card_le_card (monotone_filter_right _ fun a _ => h a)

theorem prob_or_le {α : Type} [Fintype α] (S T : α → Prop) [DecidablePred S] [DecidablePred T] :
    prob (fun a => S a ∨ T a) ≤ prob S + prob T := by
  unfold prob
  rw [← add_div]
  apply div_le_div_of_nonneg_right _ (by positivity)
  classical
  rw [filter_or]
  exact_mod_cast card_union_le _ _

/-- Two events that agree outside of a third differ in probability by at most that of the third. -/
theorem prob_diff_le {α : Type} [Fintype α] {S T B : α → Prop} [DecidablePred S] [DecidablePred T]
    [DecidablePred B] (h : ∀ a, ¬ B a → (S a ↔ T a)) : |prob S - prob T| ≤ prob B := by
  have h1 : prob S ≤ prob T + prob B := (prob_mono fun a ha => by
    by_cases hb : B a
    · exact Or.inr hb
    · exact Or.inl ((h a hb).1 ha)).trans (prob_or_le T B)
  have h2 : prob T ≤ prob S + prob B := (prob_mono fun a ha => by
    by_cases hb : B a
    · exact Or.inr hb
    · exact Or.inl ((h a hb).2 ha)).trans (prob_or_le S B)
  rw [abs_le]
  constructor <;> linarith

theorem prob_prod_close {α β : Type} [Fintype α] [Fintype β] {S T : α → β → Prop}
    [∀ a b, Decidable (S a b)] [∀ a b, Decidable (T a b)] {x : ℚ} (hx : 0 ≤ x)
    (h : ∀ a, |prob (S a) - prob (T a)| ≤ x) :
    |prob (fun t : α × β => S t.1 t.2) - prob (fun t : α × β => T t.1 t.2)| ≤ x := by
  rw [prob_prod S, prob_prod T, ← sub_div, ← sum_sub_distrib, abs_div, Nat.abs_cast]
  apply div_le_of_le_mul₀ (by positivity) hx
  refine (abs_sum_le_sum_abs _ _).trans ((sum_le_sum fun a _ => h a).trans ?_)
  rw [sum_const, card_univ, nsmul_eq_mul, mul_comm]

/-- The union bound. -/
theorem prob_exists_le {α ι : Type} [Fintype α] (I : Finset ι) (S : ι → α → Prop)
    [∀ i, DecidablePred (S i)] (T : α → Prop) [DecidablePred T]
    (hT : ∀ a, T a → ∃ i ∈ I, S i a) : prob T ≤ ∑ i ∈ I, prob (S i) := by
  classical
  induction I using Finset.induction_on generalizing T with
  | empty =>
    have : prob T ≤ prob fun _ : α => False := prob_mono fun a ha => by simpa using hT a ha
    simpa [prob] using this
  | insert i I hi ih =>
    rw [sum_insert hi]
    refine le_trans (le_trans (prob_mono fun a ha => ?_)
      (prob_or_le (S i) fun a => ∃ i ∈ I, S i a)) (add_le_add_right (ih _ fun a h => h) _)
    obtain ⟨k, hk, hka⟩ := hT a ha
    rcases mem_insert.1 hk with rfl | hk
    · exact Or.inl hka
    · exact Or.inr ⟨k, hk, hka⟩

theorem prob_eq_one {α : Type} [Fintype α] [Nonempty α] {S : α → Prop} [DecidablePred S]
    (h : ∀ a, S a) : prob S = 1 := by
  unfold prob
  rw [filter_true_of_mem fun a _ => h a, card_univ, div_self]
  exact_mod_cast Fintype.card_ne_zero

theorem prob_add_prob_not {α : Type} [Fintype α] [Nonempty α] (S : α → Prop) [DecidablePred S] :
    prob S + prob (fun a => ¬ S a) = 1 := by
  unfold prob
  rw [← add_div, ← Nat.cast_add, card_filter_add_card_filter_not, card_univ]
  exact div_self (by exact_mod_cast Fintype.card_ne_zero)

end PJC.Prob
