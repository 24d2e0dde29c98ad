import Verif.Lemmas.Fork
/-
Forking twice: one run and two second runs, from two of its questions on.
-/
namespace PJC.Oracle
open Finset PJC.Prob

variable {X Y A : Type} [DecidableEq X] [Fintype Y] [Nonempty Y]

open scoped Classical in
/-- How often the second run wins for `x`. -/
noncomputable def again (target : A → Option X) (acc : A → Y → Prop) (P : Prog X Y A) (D : Finset X)
    (B : X → Y) (o : X → Y) (x : X) : ℚ :=
  prob fun g : D → Y => Wins target acc P (P.rewind o (graft B D g) x) x

open scoped Classical in
/-- Runs that win, but whose second run wins less often than `τ`, are rare. -/
theorem light_bound (target : A → Option X) (acc : A → Y → Prop) (P : Prog X Y A) {τ : ℚ} (hτ : 0 ≤ τ) :
    ∀ (Q : Nat) (D : Finset X) (B : X → Y), P.AsksAtMost Q →
    prob (fun f : D → Y => ∃ x ∈ D, Wins target acc P (graft B D f) x ∧
      again target acc P D B (graft B D f) x < τ) ≤ (Q + 1) * τ := by
  -- runs that win at the first question
  have first : ∀ (P : Prog X Y A) (D : Finset X) (B : X → Y) (x : X),
      (∀ f g : D → Y, P.rewind (graft B D f) (graft B D g) x = graft B D g) →
      prob (fun f : D → Y => Wins target acc P (graft B D f) x ∧
        again target acc P D B (graft B D f) x < τ) ≤ τ := by
    intro P D B x hr
    by_cases h : ∃ f : D → Y, Wins target acc P (graft B D f) x ∧
        again target acc P D B (graft B D f) x < τ
    · obtain ⟨f, -, hf⟩ := h
      refine le_trans (prob_mono fun g hg => hg.1) (le_trans (le_of_eq ?_) hf.le)
      unfold again
      exact prob_congr fun g => by rw [hr]
    · refine le_trans (le_of_eq ?_) hτ
      unfold prob
      rw [filter_false_of_mem fun f _ hf => h ⟨f, hf⟩]
      simp
  induction P with
  | out a =>
    intro Q D B _
    have hr : ∀ (x : X) (f g : D → Y),
        (Prog.out a : Prog X Y A).rewind (graft B D f) (graft B D g) x = graft B D g := by
      intro x f g
      funext z; simp [Prog.rewind, Prog.before]
    have h1 : τ ≤ (Q + 1) * τ := by
      have : (0 : ℚ) ≤ Q := Nat.cast_nonneg Q
      nlinarith
    refine le_trans ?_ h1
    cases ht : target a with
    | none =>
      refine le_trans (le_of_eq ?_) hτ
      unfold prob
      rw [filter_false_of_mem]
      · simp
      · rintro f - ⟨x, -, ⟨h, -⟩, -⟩
        rw [Prog.run, ht] at h
        cases h
    | some x =>
      refine le_trans (prob_mono fun f hf => ?_) (first (.out a) D B x (hr x))
      obtain ⟨z, hz, hw, hl⟩ := hf
      have := hw.1
      rw [Prog.run, ht] at this
      cases this
      exact ⟨hw, hl⟩
  | ask x k ih =>
    intro Q D B hQ
    cases Q with
    | zero => exact hQ.elim
    | succ Q =>
    by_cases hx : x ∈ D
    · have s2 : prob (fun f : D → Y => ∃ z ∈ D.erase x, Wins target acc (.ask x k) (graft B D f) z ∧
          again target acc (.ask x k) D B (graft B D f) z < τ) ≤ (Q + 1) * τ := by
        have e : prob (fun f : D → Y => ∃ z ∈ D.erase x, Wins target acc (.ask x k) (graft B D f) z ∧
            again target acc (.ask x k) D B (graft B D f) z < τ) =
            prob (fun t : Y × (D.erase x → Y) => ∃ z ∈ D.erase x,
              Wins target acc (k t.1) (graft (Function.update B x t.1) (D.erase x) t.2) z ∧
              again target acc (k t.1) (D.erase x) (Function.update B x t.1)
                (graft (Function.update B x t.1) (D.erase x) t.2) z < τ) := by
          rw [← prob_equiv (Oracle.split hx)]
          apply prob_congr
          intro f
          apply exists_congr
          intro z
          apply and_congr_right
          intro hz
          have hzx := (mem_erase.1 hz).1
          have ef := graft_split B hx f
          have ex : graft B D f x = (split hx f).1 := by rw [ef]; simp [graft]
          rw [← ef]
          have e3 : (Prog.ask x k).run (graft B D f) = (k (split hx f).1).run (graft B D f) := by
            rw [Prog.run, ex]
          refine and_congr (by unfold Wins; rw [e3]) ?_
          have : again target acc (.ask x k) D B (graft B D f) z =
              again target acc (k (split hx f).1) (D.erase x) (Function.update B x (split hx f).1)
                (graft B D f) z := by
            unfold again
            refine Eq.trans ?_ (prob_snd (α := Y) fun g : D.erase x → Y =>
              Wins target acc (k (split hx f).1) ((k (split hx f).1).rewind (graft B D f)
                (graft (Function.update B x (split hx f).1) (D.erase x) g) z) z)
            rw [← prob_equiv (Oracle.split hx)]
            apply prob_congr
            intro g
            have eg := graft_split B hx g
            set g' := graft (Function.update B x (split hx f).1) (D.erase x) (split hx g).2 with hg'
            have hg1 : ∀ w, w ≠ x → graft B D g w = g' w := by
              intro w hw
              rw [eg, hg']
              unfold graft
              simp [hw]
            have hg2 : g' x = graft B D f x := by
              rw [ex, hg']; simp [graft]
            have er := rewind_ask (k := k) hzx (graft B D f) (graft B D g) g' hg1 hg2
            have e4 : (k (split hx f).1).rewind (graft B D f) g' z x = (split hx f).1 := by
              unfold Prog.rewind
              split
              · exact ex
              · rw [hg2, ex]
            have e5 : (Prog.ask x k).run ((k (split hx f).1).rewind (graft B D f) g' z) =
                (k (split hx f).1).run ((k (split hx f).1).rewind (graft B D f) g' z) := by
              rw [Prog.run, e4]
            unfold Wins
            rw [er, ex, e5]
          rw [this]
        rw [e, prob_prod (fun y (f : D.erase x → Y) => ∃ z ∈ D.erase x,
              Wins target acc (k y) (graft (Function.update B x y) (D.erase x) f) z ∧
              again target acc (k y) (D.erase x) (Function.update B x y)
                (graft (Function.update B x y) (D.erase x) f) z < τ)]
        have hY : (0 : ℚ) < Fintype.card Y := by exact_mod_cast Fintype.card_pos
        rw [div_le_iff₀ hY]
        refine (sum_le_sum fun y _ => ih y Q (D.erase x) (Function.update B x y) (hQ y)).trans_eq ?_
        rw [sum_const, card_univ, nsmul_eq_mul]
        ring
      have s1 := first (.ask x k) D B x fun f g => by
        funext z; simp [Prog.rewind, Prog.before]
      have s3 : prob (fun f : D → Y => ∃ z ∈ D, Wins target acc (.ask x k) (graft B D f) z ∧
          again target acc (.ask x k) D B (graft B D f) z < τ) ≤ τ + (Q + 1) * τ := by
        refine le_trans (prob_mono fun f hf => ?_) ((prob_or_le _ _).trans (add_le_add s1 s2))
        obtain ⟨z, hz, hw⟩ := hf
        by_cases h : z = x
        · subst h; exact Or.inl hw
        · exact Or.inr ⟨z, mem_erase.2 ⟨h, hz⟩, hw⟩
      refine s3.trans_eq ?_
      push_cast
      ring
    · have e : ∀ o : X → Y, o x = B x → (Prog.ask x k).run o = (k (B x)).run o := by
        intro o ho
        rw [Prog.run, ho]
      have h1 := ih (B x) Q D B (hQ _)
      have h2 : ((Q : ℚ) + 1) * τ ≤ ((Q + 1 : ℕ) + 1) * τ := by push_cast; nlinarith
      refine le_trans (prob_mono fun f hf => ?_) (h1.trans h2)
      obtain ⟨z, hz, hw, hl⟩ := hf
      have hzx : z ≠ x := fun h => hx (h ▸ hz)
      have hf := graft_not_mem B hx f
      refine ⟨z, hz, ?_, ?_⟩
      · unfold Wins at hw ⊢
        rwa [e _ hf] at hw
      · refine lt_of_eq_of_lt ?_ hl
        unfold again
        apply prob_congr
        intro g
        have hg := graft_not_mem B hx g
        have er := rewind_ask (k := k) hzx (graft B D f) (graft B D g) (graft B D g) (fun _ _ => rfl)
          (hg.trans hf.symm)
        rw [hf] at er
        rw [er]
        unfold Wins
        rw [e]
        unfold Prog.rewind
        split
        · exact hf
        · exact hg

open scoped Classical in
/-- **Forking twice**.  The runs in `S` win for two questions (two outputs of the program).  With the
given probability a run is in `S`, its second run from the first of the questions on wins there with
another challenge, and so does its second run from the other question on. -/
theorem double_fork {C : Type} [DecidableEq C] (χ : Y → C) {δ τ : ℚ}
    (hδ : ∀ c, prob (fun y => χ y = c) ≤ δ) (hδ0 : 0 ≤ δ) (hτ : δ ≤ τ) (target target' : A → Option X)
    (acc acc' : A → Y → Prop) (P : Prog X Y A) (Q : Nat) (D : Finset X) (B : X → Y) (hQ : P.AsksAtMost Q)
    (S : (D → Y) → Prop)
    (hS : ∀ f, S f → (∃ x ∈ D, Wins target acc P (graft B D f) x) ∧
      ∃ x ∈ D, Wins target' acc' P (graft B D f) x) :
    (prob S - 2 * (Q + 1) * τ) * (τ - δ) ^ 2 ≤
      prob (fun t : (D → Y) × (D → Y) × (D → Y) => S t.1 ∧
        (∃ x ∈ D, Twice target acc P (graft B D t.1) (graft B D t.2.1) x ∧
          χ (graft B D t.1 x) ≠ χ (graft B D t.2.1 x)) ∧
        ∃ x ∈ D, Twice target' acc' P (graft B D t.1) (graft B D t.2.2) x ∧
          χ (graft B D t.1 x) ≠ χ (graft B D t.2.2 x)) := by
  have hτ0 := hδ0.trans hτ
  have l1 := light_bound target acc P hτ0 Q D B hQ
  have l2 := light_bound target' acc' P hτ0 Q D B hQ
  set heavy : (D → Y) → Prop := fun f => S f ∧
    (∃ x ∈ D, Wins target acc P (graft B D f) x ∧ τ ≤ again target acc P D B (graft B D f) x) ∧
    ∃ x ∈ D, Wins target' acc' P (graft B D f) x ∧ τ ≤ again target' acc' P D B (graft B D f) x with hh
  have h1 : prob S - 2 * (Q + 1) * τ ≤ prob heavy := by
    have : prob S ≤ prob heavy + ((Q + 1) * τ + (Q + 1) * τ) := by
      refine le_trans (prob_mono (T := fun f => heavy f ∨ ((∃ x ∈ D, Wins target acc P (graft B D f) x ∧
        again target acc P D B (graft B D f) x < τ) ∨ ∃ x ∈ D, Wins target' acc' P (graft B D f) x ∧
        again target' acc' P D B (graft B D f) x < τ)) fun f hf => ?_)
        ((prob_or_le _ _).trans (add_le_add le_rfl ((prob_or_le _ _).trans (add_le_add l1 l2))))
      obtain ⟨⟨x, hx, hw⟩, x', hx', hw'⟩ := hS f hf
      by_cases c1 : again target acc P D B (graft B D f) x < τ
      · exact Or.inr (Or.inl ⟨x, hx, hw, c1⟩)
      · by_cases c2 : again target' acc' P D B (graft B D f) x' < τ
        · exact Or.inr (Or.inr ⟨x', hx', hw', c2⟩)
        · exact Or.inl ⟨hf, ⟨x, hx, hw, not_lt.1 c1⟩, x', hx', hw', not_lt.1 c2⟩
    linarith
  have side : ∀ (target : A → Option X) (acc : A → Y → Prop) (f : D → Y) (x : X), x ∈ D →
      Wins target acc P (graft B D f) x → τ ≤ again target acc P D B (graft B D f) x →
      τ - δ ≤ prob (fun g : D → Y => ∃ x ∈ D, Twice target acc P (graft B D f) (graft B D g) x ∧
          χ (graft B D f x) ≠ χ (graft B D g x)) := by
    intro target acc f x hx hw ha
    have h2 : again target acc P D B (graft B D f) x ≤
        prob (fun g : D → Y => ∃ x ∈ D, Twice target acc P (graft B D f) (graft B D g) x ∧
          χ (graft B D f x) ≠ χ (graft B D g x)) +
        prob (fun g : D → Y => χ (g ⟨x, hx⟩) = χ (f ⟨x, hx⟩)) := by
      unfold again
      refine le_trans (prob_mono fun g hg => ?_) (prob_or_le _ _)
      by_cases h : χ (g ⟨x, hx⟩) = χ (f ⟨x, hx⟩)
      · exact Or.inr h
      · refine Or.inl ⟨x, hx, ⟨hw, hg⟩, fun e => h ?_⟩
        rw [graft_mem B hx, graft_mem B hx] at e
        exact e.symm
    have h3 := (prob_at hx fun y => χ y = χ (f ⟨x, hx⟩)).trans_le (hδ _)
    linarith
  rw [prob_prod (fun (f : D → Y) (t : (D → Y) × (D → Y)) => S f ∧
        (∃ x ∈ D, Twice target acc P (graft B D f) (graft B D t.1) x ∧
          χ (graft B D f x) ≠ χ (graft B D t.1 x)) ∧
        ∃ x ∈ D, Twice target' acc' P (graft B D f) (graft B D t.2) x ∧
          χ (graft B D f x) ≠ χ (graft B D t.2 x))]
  have hN : (0 : ℚ) < Fintype.card (D → Y) := by exact_mod_cast Fintype.card_pos
  rw [le_div_iff₀ hN]
  have key : ∀ f : D → Y, (if heavy f then (τ - δ) ^ 2 else 0) ≤
      prob (fun t : (D → Y) × (D → Y) => S f ∧
        (∃ x ∈ D, Twice target acc P (graft B D f) (graft B D t.1) x ∧
          χ (graft B D f x) ≠ χ (graft B D t.1 x)) ∧
        ∃ x ∈ D, Twice target' acc' P (graft B D f) (graft B D t.2) x ∧
          χ (graft B D f x) ≠ χ (graft B D t.2 x)) := by
    intro f
    split
    · rename_i hf
      obtain ⟨hf0, ⟨x, hx, hw, ha⟩, x', hx', hw', ha'⟩ := hf
      have a1 := side target acc f x hx hw ha
      have a2 := side target' acc' f x' hx' hw' ha'
      have h0 : 0 ≤ τ - δ := by linarith
      have a3 := mul_le_mul a1 a2 h0 (prob_nonneg _)
      rw [← prob_and] at a3
      rw [sq]
      refine a3.trans (le_of_eq ?_)
      exact prob_congr fun t => by simp only [hf0, true_and]
    · exact prob_nonneg _
  calc (prob S - 2 * (Q + 1) * τ) * (τ - δ) ^ 2 * Fintype.card (D → Y)
      ≤ prob heavy * (τ - δ) ^ 2 * Fintype.card (D → Y) := by gcongr
    _ = ∑ f, (if heavy f then (τ - δ) ^ 2 else 0) := by
        rw [← sum_filter, sum_const, nsmul_eq_mul]
        unfold prob
        field_simp
    _ ≤ _ := sum_le_sum fun f _ => key f

end PJC.Oracle
