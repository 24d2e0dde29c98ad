import Verif.Lemmas.Stat
import Mathlib.Data.Nat.Totient
/-
Statistical closeness when some draws make the real experiment fail, and counts of such draws.
-/
namespace PJC.Stat
open Finset

/-- The draws whose `i`-th coordinate has a property are as frequent as the values having it. -/
theorem card_box_coord {ι : Type} [Fintype ι] [DecidableEq ι] (B : ι → Nat) (i : ι)
    (P : Nat → Prop) [DecidablePred P] :
    ((Box B).filter fun a => P (a i)).card * B i = ((range (B i)).filter P).card * (Box B).card := by
  have heq : ((Box B).filter fun a => P (a i)) =
      Fintype.piFinset (Function.update (fun j => range (B j)) i ((range (B i)).filter P)) := by
    ext a
    rw [mem_filter, mem_box, Fintype.mem_piFinset]
    constructor
    · rintro ⟨h1, h2⟩ j
      by_cases hj : j = i
      · subst hj
        simp only [Function.update_self, mem_filter, mem_range]
        exact ⟨h1 j, h2⟩
      · rw [Function.update_of_ne hj]
        exact mem_range.2 (h1 j)
    · intro h
      refine ⟨fun j => ?_, ?_⟩
      · have := h j
        by_cases hj : j = i
        · subst hj
          simp only [Function.update_self, mem_filter, mem_range] at this
          exact this.1
        · rw [Function.update_of_ne hj] at this
          exact mem_range.1 this
      · have := h i
        simp only [Function.update_self, mem_filter] at this
        exact this.2
  rw [heq, Fintype.card_piFinset]
  have e1 : (∏ j, (Function.update (fun j => range (B j)) i ((range (B i)).filter P) j).card) =
      ((range (B i)).filter P).card * ∏ j ∈ univ.erase i, B j := by
    rw [← mul_prod_erase univ _ (mem_univ i)]
    congr 1
    · simp
    · apply prod_congr rfl
      intro j hj
      rw [Function.update_of_ne (ne_of_mem_erase hj)]
      simp
  have e2 : (Box B).card = B i * ∏ j ∈ univ.erase i, B j := by
    rw [Box, Fintype.card_piFinset, ← mul_prod_erase univ _ (mem_univ i)]
    simp
  rw [e1, e2]
  ring

/-- As `close_of_shift`, when the draws of `U`, a fraction of at most `u / den'`, are given up. -/
theorem close_of_shift_bad {ι β : Type} [Fintype ι] [DecidableEq ι] (B s k : ι → Nat) (den : Nat)
    (hB : ∀ i, 0 < B i) (hs : ∀ i, s i * den ≤ k i * B i) (U : Finset (ι → Nat)) (hU : U ⊆ Box B)
    (u den' : Nat) (hu : U.card * den' ≤ u * (Box B).card) (real sim : (ι → Nat) → β)
    (heq : ∀ a ∈ Box B, a ∉ U → (∀ i, a i + s i < B i) → real a = sim fun i => a i + s i) :
    StatClose (Box B) real sim ((∑ i, k i) * den' + u * den) (den * den') := by
  classical
  set V := univ.biUnion fun i => (Box B).filter fun a => B i ≤ a i + s i with hV
  have hVc : V.card * den ≤ (∑ i, k i) * (Box B).card := by
    refine (Nat.mul_le_mul_right den card_biUnion_le).trans ?_
    rw [sum_mul, sum_mul]
    apply sum_le_sum
    intro i _
    have h1 := card_box_bad B s i
    have h2 := hs i
    apply Nat.le_of_mul_le_mul_right (c := B i) ?_ (hB i)
    calc ((Box B).filter fun a => B i ≤ a i + s i).card * den * B i
        = ((Box B).filter fun a => B i ≤ a i + s i).card * B i * den := by ring
      _ ≤ s i * (Box B).card * den := Nat.mul_le_mul_right _ h1
      _ = (s i * den) * (Box B).card := by ring
      _ ≤ (k i * B i) * (Box B).card := Nat.mul_le_mul_right _ h2
      _ = k i * (Box B).card * B i := by ring
  have notV : ∀ a ∈ Box B, a ∉ V → ∀ i, a i + s i < B i := by
    intro a ha hb i
    by_contra hcon
    exact hb (mem_biUnion.2 ⟨i, mem_univ i, mem_filter.2 ⟨ha, not_lt.1 hcon⟩⟩)
  refine close_of_inj (Box B) (V ∪ U) real sim (fun a i => a i + s i) _ _ ?_ ?_ ?_ ?_ ?_
  · refine union_subset ?_ hU
    intro a ha
    obtain ⟨i, -, hi⟩ := mem_biUnion.1 ha
    exact (mem_filter.1 hi).1
  · have h1 := card_union_le V U
    calc (V ∪ U).card * (den * den') ≤ (V.card + U.card) * (den * den') :=
          Nat.mul_le_mul_right _ h1
      _ = (V.card * den) * den' + (U.card * den') * den := by ring
      _ ≤ ((∑ i, k i) * (Box B).card) * den' + (u * (Box B).card) * den :=
          Nat.add_le_add (Nat.mul_le_mul_right _ hVc) (Nat.mul_le_mul_right _ hu)
      _ = ((∑ i, k i) * den' + u * den) * (Box B).card := by ring
  · intro a ha hb
    rw [mem_union, not_or] at hb
    rw [mem_box]
    exact notV a ha hb.1
  · intro a _ b _ h
    funext i
    have := congrFun h i
    simpa using this
  · intro a ha hb
    rw [mem_union, not_or] at hb
    exact heq a ha hb.2 (notV a ha hb.1)

/-- The draws that are bad in one of some coordinates, each with frequency at most `u / den`. -/
theorem card_box_some {ι κ : Type} [Fintype ι] [DecidableEq ι] [Fintype κ] (B : ι → Nat)
    (f : κ → ι) (P : κ → Nat → Prop) [∀ j, DecidablePred (P j)] (hB : ∀ i, 0 < B i) (u den : Nat)
    (h : ∀ j, ((range (B (f j))).filter (P j)).card * den ≤ u * B (f j)) :
    ((Box B).filter fun a => ∃ j, P j (a (f j))).card * den ≤ (Fintype.card κ * u) * (Box B).card := by
  classical
  have hsub : ((Box B).filter fun a => ∃ j, P j (a (f j))) ⊆
      univ.biUnion fun j => (Box B).filter fun a => P j (a (f j)) := by
    intro a ha
    rw [mem_filter] at ha
    obtain ⟨j, hj⟩ := ha.2
    exact mem_biUnion.2 ⟨j, mem_univ j, mem_filter.2 ⟨ha.1, hj⟩⟩
  calc _ ≤ (∑ j, ((Box B).filter fun a => P j (a (f j))).card) * den :=
        Nat.mul_le_mul_right _ ((card_le_card hsub).trans card_biUnion_le)
    _ = ∑ j, ((Box B).filter fun a => P j (a (f j))).card * den := sum_mul _ _ _
    _ ≤ ∑ _j : κ, u * (Box B).card := by
        apply sum_le_sum
        intro j _
        have h1 := card_box_coord B (f j) (P j)
        apply Nat.le_of_mul_le_mul_right (c := B (f j)) ?_ (hB _)
        calc ((Box B).filter fun a => P j (a (f j))).card * den * B (f j)
            = ((Box B).filter fun a => P j (a (f j))).card * B (f j) * den := by ring
          _ = ((range (B (f j))).filter (P j)).card * den * (Box B).card := by rw [h1]; ring
          _ ≤ (u * B (f j)) * (Box B).card := Nat.mul_le_mul_right _ (h j)
          _ = u * (Box B).card * B (f j) := by ring
    _ = _ := by rw [sum_const, card_univ, smul_eq_mul]; ring

/-- The same, with the set of bad draws given by its property. -/
theorem exists_bad {ι κ : Type} [Fintype ι] [DecidableEq ι] [Fintype κ] (B : ι → Nat)
    (f : κ → ι) (P : κ → Nat → Prop) [∀ j, DecidablePred (P j)] (hB : ∀ i, 0 < B i) (u den : Nat)
    (h : ∀ j, ((range (B (f j))).filter (P j)).card * den ≤ u * B (f j)) :
    ∃ V ⊆ Box B, (∀ a ∈ Box B, a ∉ V → ∀ j, ¬ P j (a (f j))) ∧
      V.card * den ≤ (Fintype.card κ * u) * (Box B).card := by
  refine ⟨_, filter_subset _ _, ?_, card_box_some B f P hB u den h⟩
  intro a ha hna j hcon
  exact hna (mem_filter.2 ⟨ha, j, hcon⟩)

/-- In `[0, N T)` exactly `T (N - φ(N))` numbers are not coprime to `N`. -/
theorem card_not_coprime (N T : Nat) :
    ((range (N * T)).filter fun x => ¬ N.Coprime x).card = T * (N - N.totient) := by
  induction T with
  | zero => simp
  | succ T ih =>
    have h1 : range (N * (T + 1)) = range (N * T) ∪ Ico (N * T) (N * T + N) := by
      rw [Nat.mul_succ, range_eq_Ico, range_eq_Ico, Ico_union_Ico_eq_Ico] <;> omega
    have h2 : Disjoint (range (N * T)) (Ico (N * T) (N * T + N)) := by
      rw [disjoint_left]
      intro x hx hy
      rw [mem_range] at hx
      rw [mem_Ico] at hy
      omega
    rw [h1, filter_union, card_union_of_disjoint (disjoint_filter_filter h2), ih]
    have h3 := Nat.filter_coprime_Ico_eq_totient N (N * T)
    have h4 := card_filter_add_card_filter_not (s := Ico (N * T) (N * T + N)) (fun x => N.Coprime x)
    rw [h3, Nat.card_Ico] at h4
    rw [Nat.succ_mul]
    omega

/-- In `[0, q T)` exactly `T` numbers are divisible by `q`. -/
theorem card_dvd {q : Nat} (hq : 0 < q) (T : Nat) :
    ((range (q * T)).filter fun x => q ∣ x).card = T := by
  have : ((range (q * T)).filter fun x => q ∣ x) = (range T).image fun j => q * j := by
    ext x
    simp only [mem_filter, mem_range, mem_image]
    constructor
    · rintro ⟨h1, j, rfl⟩
      exact ⟨j, Nat.lt_of_mul_lt_mul_left h1, rfl⟩
    · rintro ⟨j, h1, rfl⟩
      exact ⟨Nat.mul_lt_mul_of_pos_left h1 hq, j, rfl⟩
  rw [this, card_image_of_injective, card_range]
  intro a b h
  exact Nat.eq_of_mul_eq_mul_left hq h

end PJC.Stat
