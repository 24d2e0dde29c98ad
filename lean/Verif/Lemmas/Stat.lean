import Mathlib.Data.Fintype.BigOperators
import Mathlib.Algebra.Order.BigOperators.Group.Finset
import Mathlib.Algebra.Order.Group.Abs
import Mathlib.Order.Interval.Finset.Nat
import Mathlib.Algebra.BigOperators.Ring.Finset
import Mathlib.Tactic.Linarith
import Mathlib.Tactic.Ring
/-
Statistical closeness of two experiments over equally likely draws, by counting.

Specification: `StatClose D real sim num den` says that no event - no question anybody could ask
about the outcome - tells the two experiments apart with an advantage above `num / den` when the
draws are uniform in `D`.
-/
namespace PJC.Stat

open Finset

/-- The statistical distance of `real` and `sim`, with draws uniform in `D`, is at most
`num / den`. -/
def StatClose {α β : Type} (D : Finset α) (real sim : α → β) (num den : Nat) : Prop :=
  ∀ (S : β → Prop) [DecidablePred S],
    |((D.filter fun a => S (real a)).card : Int) - ((D.filter fun a => S (sim a)).card : Int)| * den
      ≤ num * D.card

/-- What is computed from two close experiments is close. -/
theorem StatClose.map {α β γ : Type} {D : Finset α} {real sim : α → β} {num den : Nat}
    (h : StatClose D real sim num den) (F : β → γ) {real' sim' : α → γ}
    (h1 : ∀ a ∈ D, real' a = F (real a)) (h2 : ∀ a ∈ D, sim' a = F (sim a)) :
    StatClose D real' sim' num den := by
  intro S _
  have := h (fun b => S (F b))
  rwa [filter_congr (p := fun a => S (real' a)) (q := fun a => S (F (real a))) fun a ha => by rw [h1 a ha],
    filter_congr (p := fun a => S (sim' a)) (q := fun a => S (F (sim a))) fun a ha => by rw [h2 a ha]]

theorem close_of_inj {α β : Type} [DecidableEq α] (D Bad : Finset α) (real sim : α → β)
    (φ : α → α) (num den : Nat) (hbad : Bad ⊆ D) (hcard : Bad.card * den ≤ num * D.card)
    (hmaps : ∀ a ∈ D, a ∉ Bad → φ a ∈ D) (hinj : ∀ a ∈ D, ∀ b ∈ D, φ a = φ b → a = b)
    (heq : ∀ a ∈ D, a ∉ Bad → real a = sim (φ a)) : StatClose D real sim num den := by
  intro S _
  have hsdc : (D \ Bad).card = D.card - Bad.card := card_sdiff_of_subset hbad
  have hle := card_le_card hbad
  have inj : Set.InjOn φ (D \ Bad : Finset α) := by
    intro a ha b hb h
    simp only [coe_sdiff, Set.mem_diff, mem_coe] at ha hb
    exact hinj a ha.1 b hb.1 h
  have img : (D \ Bad).image φ ⊆ D := by
    intro x hx
    obtain ⟨a, ha, rfl⟩ := mem_image.1 hx
    rw [mem_sdiff] at ha
    exact hmaps a ha.1 ha.2
  -- real ≤ sim + bad
  have h1 : (D.filter fun a => S (real a)).card ≤ (D.filter fun a => S (sim a)).card + Bad.card := by
    have : (D.filter fun a => S (real a)) ⊆ ((D \ Bad).filter fun a => S (sim (φ a))) ∪ Bad := by
      intro a ha
      rw [mem_filter] at ha
      by_cases hb : a ∈ Bad
      · exact mem_union_right _ hb
      · refine mem_union_left _ (mem_filter.2 ⟨mem_sdiff.2 ⟨ha.1, hb⟩, ?_⟩)
        rw [← heq a ha.1 hb]; exact ha.2
    refine (card_le_card this).trans ((card_union_le _ _).trans (Nat.add_le_add_right ?_ _))
    rw [← card_image_of_injOn (s := (D \ Bad).filter fun a => S (sim (φ a))) (f := φ)
      (inj.mono (by intro x hx; exact mem_coe.2 (mem_filter.1 (mem_coe.1 hx)).1))]
    apply card_le_card
    intro x hx
    obtain ⟨a, ha, rfl⟩ := mem_image.1 hx
    rw [mem_filter, mem_sdiff] at ha
    exact mem_filter.2 ⟨hmaps a ha.1.1 ha.1.2, ha.2⟩
  -- sim ≤ real + bad
  have h2 : (D.filter fun a => S (sim a)).card ≤ (D.filter fun a => S (real a)).card + Bad.card := by
    have hmiss : (D \ (D \ Bad).image φ).card = Bad.card := by
      rw [card_sdiff_of_subset img, card_image_of_injOn inj, hsdc]; omega
    have : (D.filter fun a => S (sim a)) ⊆
        ((D \ Bad).filter fun a => S (real a)).image φ ∪ (D \ (D \ Bad).image φ) := by
      intro x hx
      rw [mem_filter] at hx
      by_cases hi : x ∈ (D \ Bad).image φ
      · obtain ⟨a, ha, rfl⟩ := mem_image.1 hi
        refine mem_union_left _ (mem_image.2 ⟨a, mem_filter.2 ⟨ha, ?_⟩, rfl⟩)
        rw [mem_sdiff] at ha
        rw [heq a ha.1 ha.2]; exact hx.2
      · exact mem_union_right _ (mem_sdiff.2 ⟨hx.1, hi⟩)
    refine (card_le_card this).trans ((card_union_le _ _).trans ?_)
    rw [hmiss]
    refine Nat.add_le_add_right (card_image_le.trans (card_le_card ?_)) _
    intro a ha
    rw [mem_filter, mem_sdiff] at ha
    exact mem_filter.2 ⟨ha.1.1, ha.2⟩
  have h3 : |((D.filter fun a => S (real a)).card : Int) - ((D.filter fun a => S (sim a)).card : Int)|
      ≤ Bad.card := by
    rw [abs_le]; constructor <;> omega
  calc _ ≤ (Bad.card : Int) * den := mul_le_mul_of_nonneg_right h3 (by positivity)
    _ ≤ num * D.card := by exact_mod_cast hcard

/-- All vectors of draws, the `i`-th below `B i`. -/
def Box {ι : Type} [Fintype ι] [DecidableEq ι] (B : ι → Nat) : Finset (ι → Nat) :=
  Fintype.piFinset fun i => range (B i)

theorem mem_box {ι : Type} [Fintype ι] [DecidableEq ι] {B : ι → Nat} {a : ι → Nat} :
    a ∈ Box B ↔ ∀ i, a i < B i := by
  simp [Box, Fintype.mem_piFinset]

theorem card_box_bad {ι : Type} [Fintype ι] [DecidableEq ι] (B s : ι → Nat) (i : ι) :
    ((Box B).filter fun a => B i ≤ a i + s i).card * B i ≤ s i * (Box B).card := by
  have hsub : ((Box B).filter fun a => B i ≤ a i + s i) ⊆
      Fintype.piFinset (Function.update (fun j => range (B j)) i (Ico (B i - s i) (B i))) := by
    intro a ha
    rw [mem_filter, mem_box] at ha
    rw [Fintype.mem_piFinset]
    intro j
    by_cases hj : j = i
    · subst hj
      simp only [Function.update_self, mem_Ico]
      have := ha.1 j
      omega
    · rw [Function.update_of_ne hj]
      exact mem_range.2 (ha.1 j)
  have hc := card_le_card hsub
  rw [Fintype.card_piFinset] at hc
  have e1 : (∏ j, (Function.update (fun j => range (B j)) i (Ico (B i - s i) (B i)) j).card) =
      (B i - (B i - s i)) * ∏ j ∈ univ.erase i, B j := by
    rw [← mul_prod_erase univ _ (mem_univ i)]
    congr 1
    · simp
    · apply prod_congr rfl
      intro j hj
      rw [Function.update_of_ne (ne_of_mem_erase hj)]
      simp
  have e2 : (Box B).card = B i * ∏ j ∈ univ.erase i, B j := by
    rw [Box, Fintype.card_piFinset, ← mul_prod_erase univ _ (mem_univ i)]
    simp
  rw [e1] at hc
  rw [e2]
  calc _ ≤ ((B i - (B i - s i)) * ∏ j ∈ univ.erase i, B j) * B i := Nat.mul_le_mul_right _ hc
    _ ≤ (s i * ∏ j ∈ univ.erase i, B j) * B i := by
        apply Nat.mul_le_mul_right
        apply Nat.mul_le_mul_right
        omega
    _ = s i * (B i * ∏ j ∈ univ.erase i, B j) := by ring

/-- Adding `s i` to draws below `B i` is hidden up to the sum of the ratios `s i / B i`, each at
most `k i / den`. -/
theorem close_of_shift {ι β : Type} [Fintype ι] [DecidableEq ι] (B s k : ι → Nat) (den : Nat)
    (hB : ∀ i, 0 < B i) (hs : ∀ i, s i * den ≤ k i * B i) (real sim : (ι → Nat) → β)
    (heq : ∀ a ∈ Box B, (∀ i, a i + s i < B i) → real a = sim fun i => a i + s i) :
    StatClose (Box B) real sim (∑ i, k i) den := by
  classical
  refine close_of_inj (Box B) (univ.biUnion fun i => (Box B).filter fun a => B i ≤ a i + s i)
    real sim (fun a i => a i + s i) _ _ ?_ ?_ ?_ ?_ ?_
  · intro a ha
    obtain ⟨i, -, hi⟩ := mem_biUnion.1 ha
    exact (mem_filter.1 hi).1
  · refine (Nat.mul_le_mul_right den card_biUnion_le).trans ?_
    rw [sum_mul, sum_mul]
    apply sum_le_sum
    intro i _
    have h1 := card_box_bad B s i
    have h2 := hs i
    apply Nat.le_of_mul_le_mul_right (c := B i) ?_ (hB i)
    calc ((Box B).filter fun a => B i ≤ a i + s i).card * den * B i
        = ((Box B).filter fun a => B i ≤ a i + s i).card * B i * den := by ring
      _ ≤ s i * (Box B).card * den := Nat.mul_le_mul_right _ h1
      _ = (s i * den) * (Box B).card := by ring
      _ ≤ (k i * B i) * (Box B).card := Nat.mul_le_mul_right _ h2
      _ = k i * (Box B).card * B i := by ring
  · intro a ha hb
    rw [mem_box]
    intro i
    by_contra hcon
    exact hb (mem_biUnion.2 ⟨i, mem_univ i, mem_filter.2 ⟨ha, not_lt.1 hcon⟩⟩)
  · intro a _ b _ h
    funext i
    have := congrFun h i
    simpa using this
  · intro a ha hb
    apply heq a ha
    intro i
    by_contra hcon
    exact hb (mem_biUnion.2 ⟨i, mem_univ i, mem_filter.2 ⟨ha, not_lt.1 hcon⟩⟩)

end PJC.Stat
