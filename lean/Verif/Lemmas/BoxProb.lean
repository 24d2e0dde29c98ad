import Mathlib.Algebra.Order.Field.Basic
import Mathlib.Algebra.Order.Ring.Pow
import Mathlib.Tactic.Linarith
import Mathlib.Tactic.FieldSimp
import Mathlib.Tactic.Ring
import Mathlib.Logic.Equiv.Fin.Basic
import Verif.Lemmas.Prob
/-
Probabilities over vectors of numbers drawn below a bound, and what happens when the bound changes.
-/
namespace PJC.Prob
open Finset Classical

/-- The probability of `S` when `k` numbers are drawn below `B`. -/
noncomputable def pb (k B : Nat) (S : (Fin k → Nat) → Prop) : ℚ :=
  prob fun w : Fin k → Fin B => S fun i => (w i).val

variable {k A B M Q : Nat} {S T : (Fin k → Nat) → Prop}

theorem pb_mono (h : ∀ w, S w → T w) : pb k B S ≤ pb k B T := prob_mono fun _ => h _

theorem pb_nonneg : 0 ≤ pb k B S := prob_nonneg _

theorem pb_le_one : pb k B S ≤ 1 := prob_le_one _

theorem pb_eq : pb k B S = ((univ.filter fun w : Fin k → Fin B => S fun i => (w i).val).card : ℚ) /
    (B : ℚ) ^ k := by
  unfold pb prob
  rw [Fintype.card_fun, Fintype.card_fin, Fintype.card_fin]
  push_cast
  congr!

/-- The vector below the larger bound. -/
def widen (h : A ≤ B) (w : Fin k → Fin A) : Fin k → Fin B := fun i => (w i).castLE h

theorem widen_inj (h : A ≤ B) : Function.Injective (widen (k := k) h) := by
  intro w w' e
  funext i
  have := congrFun e i
  simpa [widen] using this

theorem count_mono (h : A ≤ B) : (univ.filter fun w : Fin k → Fin A => S fun i => (w i).val).card ≤
    (univ.filter fun w : Fin k → Fin B => S fun i => (w i).val).card := by
  apply card_le_card_of_injOn (widen h) _ (widen_inj h).injOn
  intro w hw
  simpa [widen] using hw

theorem count_le (h : A ≤ B) : (univ.filter fun w : Fin k → Fin B => S fun i => (w i).val).card ≤
    (univ.filter fun w : Fin k → Fin A => S fun i => (w i).val).card + (B ^ k - A ^ k) := by
  have h1 : (univ.filter fun w : Fin k → Fin B => S fun i => (w i).val) ⊆
      (univ.filter fun w : Fin k → Fin A => S fun i => (w i).val).image (widen h) ∪
        (univ \ univ.image (widen (k := k) h)) := by
    intro w hw
    by_cases hi : w ∈ univ.image (widen (k := k) h)
    · obtain ⟨v, -, rfl⟩ := mem_image.1 hi
      exact mem_union_left _ (mem_image_of_mem _ (by simpa [widen] using hw))
    · exact mem_union_right _ (mem_sdiff.2 ⟨mem_univ _, hi⟩)
  refine (card_le_card h1).trans ((card_union_le _ _).trans (add_le_add card_image_le ?_))
  rw [card_sdiff_of_subset (subset_univ _), card_univ, card_image_of_injective _ (widen_inj h),
    card_univ]
  simp

theorem bernoulli (hA : 0 < A) (h : A ≤ B) :
    1 - ((A : ℚ) / B) ^ k ≤ k * (B - A : ℕ) / B := by
  have hB : (0 : ℚ) < B := by exact_mod_cast lt_of_lt_of_le hA h
  have := one_add_mul_sub_le_pow (R := ℚ) (a := (A : ℚ) / B)
    (le_trans (by norm_num) (div_nonneg (by positivity) hB.le)) k
  rw [Nat.cast_sub h]
  have e : (k : ℚ) * ((B : ℚ) - A) / B = -(k * ((A : ℚ) / B - 1)) := by field_simp; ring
  rw [e]
  linarith

theorem pb_shrink (hA : 0 < A) (h : A ≤ B) : pb k A S ≤ pb k B S + k * (B - A : ℕ) / B := by
  refine le_trans ?_ (add_le_add_right (bernoulli hA h) _)
  have hA' : (0 : ℚ) < (A : ℚ) ^ k := by positivity
  have hB' : (0 : ℚ) < (B : ℚ) ^ k := by
    have : 0 < B := lt_of_lt_of_le hA h
    positivity
  have h1 : ((univ.filter fun w : Fin k → Fin A => S fun i => (w i).val).card : ℚ) ≤
      (univ.filter fun w : Fin k → Fin B => S fun i => (w i).val).card := by
    exact_mod_cast count_mono h
  have h2 : ((univ.filter fun w : Fin k → Fin A => S fun i => (w i).val).card : ℚ) ≤ (A : ℚ) ^ k := by
    have := card_filter_le (univ : Finset (Fin k → Fin A)) fun w => S fun i => (w i).val
    rw [card_univ, Fintype.card_fun, Fintype.card_fin, Fintype.card_fin] at this
    exact_mod_cast this
  rw [pb_eq, pb_eq, div_pow]
  have hAB : (A : ℚ) ^ k ≤ (B : ℚ) ^ k := by
    have : (A : ℚ) ≤ B := by exact_mod_cast h
    gcongr
  set a := ((univ.filter fun w : Fin k → Fin A => S fun i => (w i).val).card : ℚ)
  set b := ((univ.filter fun w : Fin k → Fin B => S fun i => (w i).val).card : ℚ)
  have h3 : a / (A : ℚ) ^ k ≤ a / (B : ℚ) ^ k + (1 - (A : ℚ) ^ k / (B : ℚ) ^ k) := by
    rw [div_add' _ _ _ hB'.ne', div_le_div_iff₀ hA' hB', sub_mul, div_mul_cancel₀ _ hB'.ne', one_mul]
    nlinarith
  refine h3.trans (add_le_add_left ?_ _)
  exact div_le_div_of_nonneg_right h1 hB'.le

theorem pb_widen (hA : 0 < A) (h : A ≤ B) : pb k B S ≤ pb k A S + k * (B - A : ℕ) / B := by
  refine le_trans ?_ (add_le_add_right (bernoulli hA h) _)
  have hA' : (0 : ℚ) < (A : ℚ) ^ k := by positivity
  have hB' : (0 : ℚ) < (B : ℚ) ^ k := by
    have : 0 < B := lt_of_lt_of_le hA h
    positivity
  have hABn : A ^ k ≤ B ^ k := Nat.pow_le_pow_left h k
  have hAB : (A : ℚ) ^ k ≤ (B : ℚ) ^ k := by exact_mod_cast hABn
  have h1 : ((univ.filter fun w : Fin k → Fin B => S fun i => (w i).val).card : ℚ) ≤
      (univ.filter fun w : Fin k → Fin A => S fun i => (w i).val).card + ((B : ℚ) ^ k - (A : ℚ) ^ k) := by
    have := count_le (k := k) (S := S) h
    have e : (((B ^ k - A ^ k : ℕ)) : ℚ) = (B : ℚ) ^ k - (A : ℚ) ^ k := by
      rw [Nat.cast_sub hABn]; push_cast; rfl
    rw [← e]
    exact_mod_cast this
  rw [pb_eq, pb_eq, div_pow]
  set a := ((univ.filter fun w : Fin k → Fin A => S fun i => (w i).val).card : ℚ)
  set b := ((univ.filter fun w : Fin k → Fin B => S fun i => (w i).val).card : ℚ)
  have ha : 0 ≤ a := by positivity
  have h2 : b / (B : ℚ) ^ k ≤ a / (B : ℚ) ^ k + (1 - (A : ℚ) ^ k / (B : ℚ) ^ k) := by
    rw [div_add' _ _ _ hB'.ne', sub_mul, div_mul_cancel₀ _ hB'.ne', one_mul]
    exact div_le_div_of_nonneg_right h1 hB'.le
  refine h2.trans (add_le_add_left ?_ _)
  exact div_le_div_of_nonneg_left ha hA' hAB

/-- If only residues count, several rounds of residues are as good as one. -/
theorem pb_residue (hQ : 0 < Q) (hS : ∀ w w' : Fin k → Nat, (∀ i, w i % M = w' i % M) → (S w ↔ S w')) :
    pb k (Q * M) S = pb k M S := by
  haveI : Nonempty (Fin Q) := ⟨⟨0, hQ⟩⟩
  unfold pb
  let e : (Fin k → Fin M) × (Fin k → Fin Q) ≃ (Fin k → Fin (Q * M)) :=
    (Equiv.prodComm _ _).trans ((Equiv.arrowProdEquivProdArrow (Fin k) (fun _ => Fin Q) (fun _ => Fin M)).symm.trans
      (Equiv.arrowCongr (Equiv.refl _) finProdFinEquiv))
  rw [← prob_equiv e]
  rw [← prob_fst (β := Fin k → Fin Q) (fun w : Fin k → Fin M => S fun i => (w i).val)]
  apply prob_congr
  rintro ⟨w, u⟩
  apply hS
  intro i
  simp [e, Equiv.arrowCongr, Equiv.arrowProdEquivProdArrow, finProdFinEquiv]

/-- An equation with coefficients that depend on residues only, one of them not 0, holds rarely. -/
theorem pb_zero (hQ : 0 < Q) (hM : 0 < M) (D : (Fin k → Nat) → Fin k → Int) (R : (Fin k → Nat) → Int)
    (hD : ∀ w w' : Fin k → Nat, (∀ i, w i % M = w' i % M) → D w = D w' ∧ R w = R w')
    (hS : ∀ w, S w → (∃ i, D w i ≠ 0) ∧ ∑ i, (w i : Int) * D w i + R w = 0) :
    pb k (Q * M) S ≤ k / Q := by
  have hQM : 0 < Q * M := Nat.mul_pos hQ hM
  haveI : Nonempty (Fin (Q * M)) := ⟨⟨0, hQM⟩⟩
  let Si : Fin k → (Fin k → Fin (Q * M)) → Prop := fun i w =>
    D (fun i => (w i).val) i ≠ 0 ∧ ∑ i, ((w i).val : Int) * D (fun i => (w i).val) i +
      R (fun i => (w i).val) = 0
  have h1 : pb k (Q * M) S ≤ ∑ i ∈ (univ : Finset (Fin k)), prob (Si i) := by
    apply prob_exists_le
    intro w hw
    obtain ⟨⟨i, hi⟩, h2⟩ := hS _ hw
    exact ⟨i, mem_univ _, hi, h2⟩
  refine h1.trans ?_
  have h2 : ∀ i, prob (Si i) ≤ 1 / Q := by
    intro i
    -- the coordinate is replaced by its residue
    let red : (Fin k → Fin (Q * M)) → (Fin k → Fin (Q * M)) := fun w =>
      Function.update w i ⟨(w i).val % M, lt_of_lt_of_le (Nat.mod_lt _ hM) (Nat.le_mul_of_pos_left _ hQ)⟩
    have hred : ∀ w w', Si i w → Si i w' → red w = red w' → w = w' := by
      intro w w' hw hw' e
      have hoff : ∀ j, j ≠ i → w j = w' j := by
        intro j hj
        have := congrFun e j
        simpa [red, hj] using this
      have hon : (w i).val % M = (w' i).val % M := by
        have := congrFun e i
        simpa [red] using this
      have hres : ∀ j, (w j).val % M = (w' j).val % M := by
        intro j
        by_cases hj : j = i
        · rw [hj]; exact hon
        · rw [hoff j hj]
      obtain ⟨eD, eR⟩ := hD (fun j => (w j).val) (fun j => (w' j).val) hres
      have h3 := hw.2
      have h4 := hw'.2
      rw [← eD, ← eR] at h4
      rw [← add_sum_erase _ _ (mem_univ i)] at h3 h4
      have h5 : ∑ j ∈ univ.erase i, ((w j).val : Int) * D (fun j => (w j).val) j =
          ∑ j ∈ univ.erase i, ((w' j).val : Int) * D (fun j => (w j).val) j := by
        refine sum_congr rfl fun j hj => ?_
        rw [hoff j (ne_of_mem_erase hj)]
      have h6 : ((w i).val : Int) * D (fun j => (w j).val) i =
          ((w' i).val : Int) * D (fun j => (w j).val) i := by
        rw [h5] at h3
        linarith
      have h7 := mul_right_cancel₀ hw.1 h6
      funext j
      by_cases hj : j = i
      · rw [hj]; exact Fin.ext (by exact_mod_cast h7)
      · exact hoff j hj
    have h3 : prob (Si i) ≤ prob fun w : Fin k → Fin (Q * M) => (w i).val < M := by
      unfold prob
      apply div_le_div_of_nonneg_right _ (by positivity)
      have : (univ.filter (Si i)).card ≤ (univ.filter fun w : Fin k → Fin (Q * M) => (w i).val < M).card := by
        apply card_le_card_of_injOn red
        · intro w _
          simp [red, Nat.mod_lt _ hM]
        · intro w hw w' hw' e
          exact hred w w' (by simpa using hw) (by simpa using hw') e
      exact_mod_cast this
    refine h3.trans (le_of_eq ?_)
    have h4 := prob_update i fun w : Fin k → Fin (Q * M) => (w i).val < M
    simp only [Function.update_self] at h4
    rw [← h4, prob_fst (β := Fin k → Fin (Q * M)) fun t : Fin (Q * M) => t.val < M]
    unfold prob
    have : (univ.filter fun t : Fin (Q * M) => t.val < M).card = M := by
      have e : (univ.filter fun t : Fin (Q * M) => t.val < M) =
          univ.image (Fin.castLE (Nat.le_mul_of_pos_left M hQ)) := by
        ext t
        simp only [mem_filter, mem_univ, true_and, mem_image]
        constructor
        · intro h; exact ⟨⟨t.val, h⟩, by ext; rfl⟩
        · rintro ⟨s, rfl⟩; exact s.isLt
      rw [e, card_image_of_injective _ (Fin.castLE_injective _), card_univ, Fintype.card_fin]
    rw [this, Fintype.card_fin]
    push_cast
    have : (0 : ℚ) < Q := by exact_mod_cast hQ
    have : (0 : ℚ) < M := by exact_mod_cast hM
    field_simp
  refine (sum_le_sum fun i _ => h2 i).trans (le_of_eq ?_)
  rw [sum_const, card_univ, Fintype.card_fin, nsmul_eq_mul]
  ring

end PJC.Prob
