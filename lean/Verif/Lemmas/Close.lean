import Verif.Lemmas.StatBad
import Mathlib.Algebra.Order.Field.Rat
import Mathlib.Tactic.FieldSimp
import Mathlib.Tactic.Linarith
/-
Statistical distance as a rational number, and how it adds up over independent draws.
-/
namespace PJC.Stat
open Finset

/-- The statistical distance of `f` and `g`, with draws uniform in `D`, is at most `ε`. -/
def Close {α β : Type} (D : Finset α) (f g : α → β) (ε : ℚ) : Prop :=
  ∀ (S : β → Prop) [DecidablePred S],
    |((D.filter fun a => S (f a)).card : ℚ) - ((D.filter fun a => S (g a)).card : ℚ)| ≤ ε * D.card

variable {α β γ : Type}

theorem StatClose.close {D : Finset α} {f g : α → β} {num den : Nat} (h : StatClose D f g num den)
    (hd : 0 < den) : Close D f g ((num : ℚ) / den) := by
  intro S _
  have h1 := h S
  have h2 : |((D.filter fun a => S (f a)).card : ℚ) - ((D.filter fun a => S (g a)).card : ℚ)| * den
      ≤ num * D.card := by exact_mod_cast h1
  have hq : (0 : ℚ) < den := by exact_mod_cast hd
  rw [div_mul_eq_mul_div, le_div_iff₀ hq]
  exact h2

theorem Close.refl (D : Finset α) (f : α → β) : Close D f f 0 := by
  intro S _
  simp

theorem Close.symm {D : Finset α} {f g : α → β} {ε : ℚ} (h : Close D f g ε) : Close D g f ε := by
  intro S _
  rw [abs_sub_comm]
  exact h S

theorem Close.trans {D : Finset α} {f g k : α → β} {ε δ : ℚ} (h : Close D f g ε)
    (h' : Close D g k δ) : Close D f k (ε + δ) := by
  intro S _
  rw [add_mul]
  exact (abs_sub_le _ _ _).trans (add_le_add (h S) (h' S))

theorem Close.mono {D : Finset α} {f g : α → β} {ε δ : ℚ} (h : Close D f g ε) (hd : ε ≤ δ) :
    Close D f g δ := by
  intro S _
  exact (h S).trans (mul_le_mul_of_nonneg_right hd (by positivity))

/-- What is computed from close experiments is close. -/
theorem Close.map {D : Finset α} {f g : α → β} {ε : ℚ} (h : Close D f g ε) (F : β → γ)
    {f' g' : α → γ} (h1 : ∀ a ∈ D, f' a = F (f a)) (h2 : ∀ a ∈ D, g' a = F (g a)) :
    Close D f' g' ε := by
  intro S _
  have h := h (fun b => S (F b))
  rwa [filter_congr (p := fun a => S (f' a)) (q := fun a => S (F (f a))) fun a ha => by rw [h1 a ha],
    filter_congr (p := fun a => S (g' a)) (q := fun a => S (F (g a))) fun a ha => by rw [h2 a ha]]

theorem Close.congr {D : Finset α} {f g f' g' : α → β} {ε : ℚ} (h : Close D f g ε)
    (h1 : ∀ a ∈ D, f' a = f a) (h2 : ∀ a ∈ D, g' a = g a) : Close D f' g' ε :=
  h.map id h1 h2

/-- Experiments that are close for each value of a second draw are close. -/
theorem Close.fst {D : Finset α} {E : Finset γ} {f g : α × γ → β} {ε : ℚ}
    (h : ∀ b ∈ E, Close D (fun a => f (a, b)) (fun a => g (a, b)) ε) : Close (D ×ˢ E) f g ε := by
  intro S _
  have key : ∀ f : α × γ → β, (((D ×ˢ E).filter fun t => S (f t)).card : ℚ) =
      ∑ b ∈ E, ((D.filter fun a => S (f (a, b))).card : ℚ) := by
    intro f
    rw [card_filter, sum_product_right]
    push_cast
    refine sum_congr rfl fun b _ => ?_
    rw [card_filter]
    push_cast
    rfl
  rw [key, key, ← sum_sub_distrib, card_product]
  refine (abs_sum_le_sum_abs _ _).trans ?_
  refine (sum_le_sum fun b hb => h b hb S).trans_eq ?_
  rw [sum_const]
  push_cast
  rw [nsmul_eq_mul]
  ring

theorem Close.snd {D : Finset α} {E : Finset γ} {f g : α × γ → β} {ε : ℚ}
    (h : ∀ a ∈ D, Close E (fun b => f (a, b)) (fun b => g (a, b)) ε) : Close (D ×ˢ E) f g ε := by
  intro S _
  have key : ∀ f : α × γ → β, (((D ×ˢ E).filter fun t => S (f t)).card : ℚ) =
      ∑ a ∈ D, ((E.filter fun b => S (f (a, b))).card : ℚ) := by
    intro f
    rw [card_filter, sum_product]
    push_cast
    refine sum_congr rfl fun b _ => ?_
    rw [card_filter]
    push_cast
    rfl
  rw [key, key, ← sum_sub_distrib, card_product]
  refine (abs_sum_le_sum_abs _ _).trans ?_
  refine (sum_le_sum fun b hb => h b hb S).trans_eq ?_
  rw [sum_const]
  push_cast
  rw [nsmul_eq_mul]
  ring

/-- A coordinate below the last multiple of `M`, shifted within its block of `M` values. -/
def rot (M B x a : Nat) : Nat := if a < M * (B / M) then M * (a / M) + (a + x) % M else a

theorem rot_lt {M B x a : Nat} (hM : 0 < M) (h : a < B) : rot M B x a < B := by
  unfold rot
  split
  · rename_i h1
    have h2 : a / M < B / M := (Nat.div_lt_iff_lt_mul hM).2 (by rwa [mul_comm])
    have h3 : (a + x) % M < M := Nat.mod_lt _ hM
    have h4 : M * (a / M + 1) ≤ M * (B / M) := Nat.mul_le_mul_left _ h2
    have h5 := Nat.mul_div_le B M
    rw [Nat.mul_add] at h4
    omega
  · exact h

theorem rot_mod {M B x a : Nat} (h : a < M * (B / M)) : rot M B x a % M = (a + x) % M := by
  unfold rot
  rw [if_pos h, Nat.mul_add_mod, Nat.mod_mod]

theorem rot_inj {M B x a b : Nat} (hM : 0 < M) (h : rot M B x a = rot M B x b) : a = b := by
  have hlow : ∀ a, a < M * (B / M) → M * (a / M) + (a + x) % M < M * (B / M) := by
    intro a ha
    have h2 : a / M < B / M := (Nat.div_lt_iff_lt_mul hM).2 (by rwa [mul_comm])
    have h3 : (a + x) % M < M := Nat.mod_lt _ hM
    have h4 : M * (a / M + 1) ≤ M * (B / M) := Nat.mul_le_mul_left _ h2
    rw [Nat.mul_add] at h4
    omega
  unfold rot at h
  split at h <;> split at h
  · have h1 := congrArg (· / M) h
    have h2 := congrArg (· % M) h
    simp only [Nat.mul_add_mod, Nat.mod_mod] at h2
    have h3 : ∀ y, (M * y + (a + x) % M) / M = y := fun y => by
      rw [Nat.mul_add_div hM, Nat.div_eq_of_lt (Nat.mod_lt _ hM), add_zero]
    have h4 : ∀ y, (M * y + (b + x) % M) / M = y := fun y => by
      rw [Nat.mul_add_div hM, Nat.div_eq_of_lt (Nat.mod_lt _ hM), add_zero]
    simp only [h3, h4] at h1
    have h5 : a % M = b % M := Nat.ModEq.add_right_cancel' x h2
    rw [← Nat.div_add_mod a M, ← Nat.div_add_mod b M, h1, h5]
  · rename_i h1 h2
    have := hlow a h1
    omega
  · rename_i h1 h2
    have := hlow b h2
    omega
  · exact h

/-- If only residues modulo `M` of uniform draws below `B` count, adding to the draws changes little.
What is added may depend on the draws, as long as it can be told from the sums. -/
theorem close_shift_mod {ι : Type} [Fintype ι] [DecidableEq ι] {M B : Nat} (hM : 0 < M) (hB : 0 < B)
    (X : (ι → Nat) → ι → Nat)
    (hX : ∀ a ∈ Box (fun _ : ι => B), ∀ b ∈ Box (fun _ : ι => B),
      (∀ i, rot M B (X a i) (a i) = rot M B (X b i) (b i)) → X a = X b)
    (F : (ι → Nat) → β) (hF : ∀ a b, (∀ i, a i % M = b i % M) → F a = F b) :
    Close (Box fun _ : ι => B) (fun a => F fun i => a i + X a i) F
      ((Fintype.card ι : ℚ) * ((B % M : Nat) : ℚ) / B) := by
  classical
  obtain ⟨V, hV, hVm, hVc⟩ := exists_bad (fun _ : ι => B) (fun i : ι => i)
    (fun _ (x : Nat) => M * (B / M) ≤ x) (fun _ => hB) (B % M) B (by
      intro i
      have hsub : (range B).filter (fun x => M * (B / M) ≤ x) ⊆ Ico (M * (B / M)) B := by
        intro x hx
        rw [mem_filter, mem_range] at hx
        rw [mem_Ico]
        exact ⟨hx.2, hx.1⟩
      have h1 := card_le_card hsub
      rw [Nat.card_Ico] at h1
      have h2 : B - M * (B / M) = B % M := by have := Nat.div_add_mod B M; omega
      rw [h2] at h1
      exact Nat.mul_le_mul_right _ h1)
  have hs : StatClose (Box fun _ : ι => B) (fun a => F fun i => a i + X a i) F
      (Fintype.card ι * (B % M)) B := by
    refine close_of_inj _ V _ _ (fun a i => rot M B (X a i) (a i)) _ _ hV hVc ?_ ?_ ?_
    · intro a ha _
      rw [mem_box] at ha ⊢
      exact fun i => rot_lt hM (ha i)
    · intro a ha b hb hab
      have e := hX a ha b hb (congrFun hab)
      funext i
      have := congrFun hab i
      simp only [e] at this
      exact rot_inj hM this
    · intro a ha hna
      apply hF
      intro i
      rw [rot_mod (not_le.1 (hVm a ha hna i))]
  have := hs.close hB
  push_cast at this ⊢
  exact this

/-- Experiments that agree unless a coordinate is bad. -/
theorem close_of_bad {ι : Type} [Fintype ι] [DecidableEq ι] {B : Nat} (hB : 0 < B)
    (P : Nat → Prop) [DecidablePred P] (u den : Nat) (hden : 0 < den)
    (hu : ((range B).filter P).card * den ≤ u * B) (f g : (ι → Nat) → β)
    (h : ∀ a ∈ Box fun _ : ι => B, (∀ i, ¬ P (a i)) → f a = g a) :
    Close (Box fun _ : ι => B) f g ((Fintype.card ι : ℚ) * u / den) := by
  classical
  obtain ⟨V, hV, hVm, hVc⟩ := exists_bad (fun _ : ι => B) (fun i : ι => i)
    (fun _ => P) (fun _ => hB) u den (fun _ => hu)
  have hs : StatClose (Box fun _ : ι => B) f g (Fintype.card ι * u) den :=
    close_of_inj _ V _ _ id _ _ hV hVc (fun a ha _ => ha) (fun a _ b _ e => e)
      (fun a ha hna => h a ha fun i => hVm a ha hna i)
  have := hs.close hden
  push_cast at this
  exact this

end PJC.Stat
