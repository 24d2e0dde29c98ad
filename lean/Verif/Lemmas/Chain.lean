import Verif.Lemmas.RandomOracle
/-
A loop that asks a random function at a string and, when the answer is not suitable, goes on with a
string made from the answer, ends soon with high probability.
-/
namespace PJC.Oracle
open Finset PJC.Prob

variable {X Y : Type} [DecidableEq X]

/-- The loop has not ended after `k` rounds: `next y` is the string to go on with after the answer
`y`, `none` if the loop ends. -/
def Running (o : X → Y) (next : Y → Option X) : Nat → X → Prop
  | 0, _ => True
  | k + 1, x => match next (o x) with
    | none => False
    | some x' => Running o next k x'

variable [Fintype Y] [Nonempty Y]

/-- If an answer is unsuitable with probability at most `β` and a certain string comes next with
probability at most `γ`, the loop has not ended after `k` rounds with probability at most
`β^k + k (k + |A|) γ`, where `A` are the strings asked before. -/
theorem chain_bound (next : Y → Option X) {β γ : ℚ} (hβ0 : 0 ≤ β) (hβ1 : β ≤ 1) (hγ0 : 0 ≤ γ)
    [DecidablePred fun y => next y ≠ none] [∀ z, DecidablePred fun y => next y = some z]
    (hβ : prob (fun y => next y ≠ none) ≤ β) (hγ : ∀ z, prob (fun y => next y = some z) ≤ γ) :
    ∀ (k : Nat) (D A : Finset X) (B : X → Y) (x : X), x ∈ D →
    (∀ y z, next y = some z → z ∈ D ∨ z ∈ A) →
    ∀ (T : (D → Y) → Prop) [DecidablePred T], (∀ f, T f → Running (graft B D f) next k x) →
    prob T ≤ β ^ k + k * (k + A.card) * γ := by
  classical
  intro k
  induction k with
  | zero => intro D A B x _ _ T _ _; simpa using prob_le_one T
  | succ k ih =>
    intro D A B x hx hnext T _ hT
    let S : Y → (D.erase x → Y) → Prop := fun y f =>
      ∃ z, next y = some z ∧ Running (graft (Function.update B x y) (D.erase x) f) next k z
    have h0 : prob T ≤ prob fun t : Y × (D.erase x → Y) => S t.1 t.2 := by
      rw [prob_split hx]
      refine prob_mono fun t ht => ?_
      have hr := hT _ ht
      have e := graft_split B hx ((split hx).symm t)
      rw [Equiv.apply_symm_apply] at e
      have ex : graft B D ((split hx).symm t) x = t.1 := by rw [e]; simp [graft]
      simp only [Running, ex] at hr
      split at hr
      · exact hr.elim
      · rename_i z hz
        refine ⟨z, hz, ?_⟩
        rwa [e] at hr
    have hA : ((insert x A).card : ℚ) ≤ A.card + 1 := by exact_mod_cast card_insert_le x A
    set c : ℚ := β ^ k + k * (k + (A.card + 1)) * γ with hc
    have hc0 : 0 ≤ c := by positivity
    have hS : ∀ y, prob (S y) ≤ (if next y ≠ none then c else 0) +
        (if ∃ z ∈ insert x A, next y = some z then 1 else 0) := by
      intro y
      have hcases : next y = none ∨ ∃ z, next y = some z := by
        cases next y <;> simp
      rcases hcases with hy | ⟨z, hy⟩
      · have : prob (S y) ≤ prob fun _ : D.erase x → Y => False := prob_mono fun f hf => by
          obtain ⟨z, hz, -⟩ := hf
          rw [hy] at hz
          cases hz
        refine this.trans ?_
        have h1 : (0 : ℚ) ≤ if ∃ z ∈ insert x A, next y = some z then 1 else 0 := by
          split <;> norm_num
        rw [if_neg (by simp [hy])]
        simpa [prob] using h1
      · rw [if_pos (by simp [hy])]
        by_cases hz : z ∈ insert x A
        · rw [if_pos ⟨z, hz, hy⟩]
          have := prob_le_one (S y)
          linarith
        · have hzD : z ∈ D.erase x := by
            simp only [mem_insert, not_or] at hz
            rcases hnext y z hy with h | h
            · exact mem_erase.2 ⟨hz.1, h⟩
            · exact absurd h hz.2
          have := ih (D.erase x) (insert x A) (Function.update B x y) z hzD (by
            intro y' z' h'
            by_cases e : z' = x
            · right; rw [e]; exact mem_insert_self _ _
            · rcases hnext y' z' h' with h | h
              · left; exact mem_erase.2 ⟨e, h⟩
              · right; exact mem_insert_of_mem h) (S y) (by
            rintro f ⟨z', h1, h2⟩
            rw [hy] at h1
            cases h1
            exact h2)
          refine this.trans ?_
          have h1 : (k : ℚ) * (k + (insert x A).card) * γ ≤ k * (k + (A.card + 1)) * γ := by gcongr
          have h2 : (0 : ℚ) ≤ if ∃ z ∈ insert x A, next y = some z then 1 else 0 := by
            split <;> norm_num
          linarith
    refine h0.trans ?_
    rw [prob_prod S]
    have e1 : (∑ y, (if next y ≠ none then c else 0)) / (Fintype.card Y : ℚ) =
        c * prob (fun y => next y ≠ none) := by
      rw [← sum_filter, sum_const, nsmul_eq_mul, prob, mul_div_assoc', mul_comm]
    have e2 : (∑ y : Y, (if ∃ z ∈ insert x A, next y = some z then (1 : ℚ) else 0)) / (Fintype.card Y : ℚ) =
        prob (fun y => ∃ z ∈ insert x A, next y = some z) := by
      rw [← sum_filter, sum_const, nsmul_eq_mul, prob, mul_one]
    have e3 : prob (fun y => ∃ z ∈ insert x A, next y = some z) ≤ (A.card + 1) * γ := by
      refine (prob_exists_le (insert x A) (fun z y => next y = some z) _ fun y hy => hy).trans ?_
      refine (sum_le_sum fun z _ => hγ z).trans ?_
      rw [sum_const, nsmul_eq_mul]
      gcongr
    calc (∑ y, prob (S y)) / (Fintype.card Y : ℚ)
        ≤ (∑ y, ((if next y ≠ none then c else 0) +
          (if ∃ z ∈ insert x A, next y = some z then (1 : ℚ) else 0))) / (Fintype.card Y : ℚ) := by
          gcongr with y
          exact hS y
      _ ≤ c * β + (A.card + 1) * γ := by
          rw [sum_add_distrib, add_div, e1, e2]
          have := mul_le_mul_of_nonneg_left hβ hc0
          linarith
      _ ≤ β ^ (k + 1) + ((k + 1 : Nat) : ℚ) * (((k + 1 : Nat) : ℚ) + A.card) * γ := by
          have h1 : (k : ℚ) * (k + (A.card + 1)) * γ * β ≤ k * (k + (A.card + 1)) * γ :=
            mul_le_of_le_one_right (by positivity) hβ1
          have h2 : c * β = β ^ (k + 1) + k * (k + (A.card + 1)) * γ * β := by rw [hc]; ring
          rw [h2]
          push_cast
          have h3 : (0 : ℚ) ≤ k * γ := by positivity
          nlinarith

end PJC.Oracle
