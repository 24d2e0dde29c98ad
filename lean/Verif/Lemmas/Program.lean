import Verif.Lemmas.ManyChains
set_option linter.unusedSectionVars false
/-
Several loops that ask the same random function until an answer is suitable: the results together with the
whole function are close to independent results together with a function that is changed at the strings at
which the loops end, so that it gives these results.
-/
namespace PJC.Program
open Finset PJC.Prob PJC.Oracle

/-- The probability, without the choice of a decision procedure. -/
noncomputable def pr {α : Type} [Fintype α] (S : α → Prop) : ℚ := @prob α _ S (Classical.decPred S)

section
variable {α β : Type} [Fintype α] [Fintype β]

theorem prob_pr (S : α → Prop) (d : DecidablePred S) : @prob α _ S d = pr S := by
  unfold pr
  congr!

theorem pr_congr {S T : α → Prop} (h : ∀ a, S a ↔ T a) : pr S = pr T := by
  have : S = T := funext fun a => propext (h a)
  rw [this]

theorem pr_nonneg (S : α → Prop) : 0 ≤ pr S := by classical exact prob_nonneg S

theorem pr_le_one (S : α → Prop) : pr S ≤ 1 := by classical exact prob_le_one S

theorem pr_mono {S T : α → Prop} (h : ∀ a, S a → T a) : pr S ≤ pr T := by
  classical
  rw [← prob_pr S inferInstance, ← prob_pr T inferInstance]
  exact prob_mono h

theorem pr_prod (S : α → β → Prop) : pr (fun t : α × β => S t.1 t.2) = (∑ a, pr (S a)) / Fintype.card α := by
  classical
  have := prob_prod S
  simp only [prob_pr] at this
  exact this

theorem pr_swap (S : α → β → Prop) : pr (fun t : α × β => S t.1 t.2) = pr (fun t : β × α => S t.2 t.1) := by
  classical
  have := prob_comm S
  simp only [prob_pr] at this
  exact this

theorem pr_equiv (e : α ≃ β) (S : β → Prop) : pr (fun a => S (e a)) = pr S := by
  classical
  have := prob_equiv e S
  simp only [prob_pr] at this
  exact this

theorem pr_fst [Nonempty β] (S : α → Prop) : pr (fun t : α × β => S t.1) = pr S := by
  classical
  have := prob_fst (β := β) S
  simp only [prob_pr] at this
  exact this

theorem pr_indep (p : α → Prop) (q : β → Prop) : pr (fun t : α × β => p t.1 ∧ q t.2) = pr p * pr q := by
  classical
  have := Py.Prng.prob_indep p q
  simp only [prob_pr] at this
  exact this

theorem pr_sum (E : Finset β) (S : β → α → Prop) (h : ∀ a b c, S b a → S c a → b = c) :
    pr (fun a => ∃ b ∈ E, S b a) = ∑ b ∈ E, pr (S b) := by
  classical
  have := Uniform.prob_sum E S h
  simp only [prob_pr] at this
  exact this

theorem pr_false {S : α → Prop} (h : ∀ a, ¬ S a) : pr S = 0 := by
  classical
  have := Py.Prng.prob_false h
  simp only [prob_pr] at this
  exact this

theorem pr_not [Nonempty α] (S : α → Prop) : pr S + pr (fun a => ¬ S a) = 1 := by
  classical
  have := prob_add_prob_not S
  simp only [prob_pr] at this
  exact this

theorem pr_or_le (S T : α → Prop) : pr (fun a => S a ∨ T a) ≤ pr S + pr T := by
  classical
  have := prob_or_le S T
  simp only [prob_pr] at this
  exact this

theorem pr_card (S : α → Prop) : pr S = Nat.card {a // S a} / Fintype.card α := by
  classical
  rw [← prob_pr S inferInstance, prob, Nat.card_eq_fintype_card, Fintype.card_subtype]
end

variable {X Y W : Type} [DecidableEq X] [Fintype Y] [Nonempty Y] [Fintype W] [Nonempty W] {n : Nat}

/-! ### Choosing a result and then an answer -/

/-- For each loop and each result, an answer that gives the result. -/
abbrev Lifts (n : Nat) (R : W → Y → Prop) : Type := Fin n → ∀ w, {y // R w y}

noncomputable instance (R : W → Y → Prop) (w : W) : Fintype {y // R w y} := Fintype.ofFinite _
noncomputable instance (R : W → Y → Prop) : Fintype (Lifts n R) := by
  classical exact Pi.instFintype

theorem lift_eval (R : W → Y → Prop) (hR : ∀ w, ∃ y, R w y) (z : Fin n → W) (T : (Fin n → Y) → Prop) :
    pr (fun f : Lifts n R => T fun i => (f i (z i)).1) =
      pr (fun a : ∀ i, {y // R (z i) y} => T fun i => (a i).1) := by
  classical
  have ne : ∀ w, Nonempty {y // R w y} := fun w => nonempty_subtype.2 (hR w)
  let e : Lifts n R ≃ (∀ i, {y // R (z i) y}) × (∀ i, ∀ w : {w // w ≠ z i}, {y // R w.1 y}) :=
    (Equiv.piCongrRight fun i => Equiv.piSplitAt (z i) fun w => {y // R w y}).trans
      ⟨fun f => (fun i => (f i).1, fun i => (f i).2), fun p i => (p.1 i, p.2 i), fun _ => rfl, fun _ => rfl⟩
  have h1 := pr_equiv e fun t => T fun i => (t.1 i).1
  have h2 := pr_fst (β := ∀ i, ∀ w : {w // w ≠ z i}, {y // R w.1 y})
    fun a : ∀ i, {y // R (z i) y} => T fun i => (a i).1
  rw [← h2, ← h1]
  exact pr_congr fun f => Iff.rfl

theorem lift_count (R : W → Y → Prop) (z : Fin n → W) (T : (Fin n → Y) → Prop) :
    pr (fun a : ∀ i, {y // R (z i) y} => T fun i => (a i).1) * ∏ i, pr (R (z i)) =
      pr (fun a : Fin n → Y => (∀ i, R (z i) (a i)) ∧ T a) := by
  classical
  have hY : (Fintype.card Y : ℚ) ≠ 0 := by exact_mod_cast Fintype.card_ne_zero
  have e : {a : Fin n → Y // (∀ i, R (z i) (a i)) ∧ T a} ≃
      {a : ∀ i, {y // R (z i) y} // T fun i => (a i).1} :=
    ⟨fun a => ⟨fun i => ⟨a.1 i, a.2.1 i⟩, a.2.2⟩, fun a => ⟨fun i => (a.1 i).1, fun i => (a.1 i).2, a.2⟩,
      fun _ => rfl, fun _ => rfl⟩
  rw [pr_card, pr_card, Nat.card_congr e, Fintype.card_pi, Fintype.card_fun, Fintype.card_fin]
  have h1 : ∀ i, pr (R (z i)) = (Fintype.card {y // R (z i) y} : ℚ) / Fintype.card Y := fun i => by
    rw [pr_card, Nat.card_eq_fintype_card]
  rw [prod_congr rfl fun i _ => h1 i, prod_div_distrib, prod_const, card_univ, Fintype.card_fin]
  push_cast
  by_cases h0 : (∏ i, (Fintype.card {y // R (z i) y} : ℚ)) = 0
  · have : IsEmpty {a : ∀ i, {y // R (z i) y} // T fun i => (a i).1} := by
      obtain ⟨i, -, hi⟩ := prod_eq_zero_iff.1 h0
      have : IsEmpty {y // R (z i) y} := Fintype.card_eq_zero_iff.1 (by exact_mod_cast hi)
      exact ⟨fun a => this.false (a.1 i)⟩
    rw [Nat.card_of_isEmpty]
    simp
  · field_simp

theorem weights (next : Y → Option X) (R : W → Y → Prop) (h1 : ∀ w y, R w y → next y = none)
    (h2 : ∀ y, next y = none → ∃ w, R w y) (h3 : ∀ w w' y, R w y → R w' y → w = w') {l u p : ℚ}
    (hl : 0 < l) (hlu : l ≤ u) (hp : 0 < p) (hR : ∀ w, l / p ≤ pr (R w) ∧ pr (R w) ≤ u / p)
    (T : (Fin n → W) → (Fin n → Y) → Prop) :
    |pr (fun a : Fin n → Y => ∃ z, (∀ i, R (z i) (a i)) ∧ T z a) - pr (fun y => next y = none) ^ n *
      pr (fun t : (Fin n → W) × Lifts n R => T t.1 fun i => (t.2 i (t.1 i)).1)| ≤
      ((u / l) ^ n - 1) * pr (fun y => next y = none) ^ n := by
  classical
  have hu : 0 < u := hl.trans_le hlu
  have hN : (0 : ℚ) < Fintype.card W := by exact_mod_cast Fintype.card_pos
  obtain ⟨a, ha⟩ : ∃ a : ℚ, a = pr fun y => next y = none := ⟨_, rfl⟩
  have hsum : a = ∑ w, pr (R w) := by
    rw [ha, ← pr_sum univ R fun y b c hb hc => h3 b c y hb hc]
    exact pr_congr fun y => ⟨fun h => (h2 y h).imp fun w hw => ⟨mem_univ _, hw⟩,
      fun ⟨w, _, hw⟩ => h1 w y hw⟩
  have ha1 : (Fintype.card W : ℚ) * (l / p) ≤ a := by
    rw [hsum]
    refine le_trans (le_of_eq ?_) (sum_le_sum fun w _ => (hR w).1)
    rw [sum_const, nsmul_eq_mul, card_univ]
  have ha2 : a ≤ (Fintype.card W : ℚ) * (u / p) := by
    rw [hsum]
    refine (sum_le_sum fun w _ => (hR w).2).trans_eq ?_
    rw [sum_const, nsmul_eq_mul, card_univ]
  have ha0 : 0 < a := lt_of_lt_of_le (by positivity) ha1
  have hRp : ∀ w, 0 < pr (R w) := fun w => lt_of_lt_of_le (by positivity) (hR w).1
  have hex : ∀ w, ∃ y, R w y := by
    intro w
    by_contra hno
    push Not at hno
    have := hRp w
    rw [pr_false hno] at this
    exact lt_irrefl _ this
  have hall : pr (fun b : Fin n → Y => ∀ i, next (b i) = none) = a ^ n := by
    have := Uniform.prob_pi (ι := Fin n) (α := fun _ => Y) fun _ y => next y = none
    simp only [prob_pr] at this
    rw [this, prod_const, card_univ, Fintype.card_fin, ha]
  rw [← ha]
  let c : (Fin n → W) → ℚ := fun z => pr (fun b : Fin n → Y => (∀ i, R (z i) (b i)) ∧ T z b)
  have hc0 : ∀ z, 0 ≤ c z := fun z => pr_nonneg _
  have hreal : pr (fun b : Fin n → Y => ∃ z, (∀ i, R (z i) (b i)) ∧ T z b) = ∑ z, c z := by
    rw [← pr_sum univ (fun z (b : Fin n → Y) => (∀ i, R (z i) (b i)) ∧ T z b)]
    · exact pr_congr fun b => by simp
    · intro b z z' h h'
      funext i
      exact h3 _ _ _ (h.1 i) (h'.1 i)
  have hle : ∑ z, c z ≤ a ^ n := by
    rw [← hreal, ← hall]
    exact pr_mono fun b ⟨z, hz, _⟩ i => h1 _ _ (hz i)
  have hideal : pr (fun t : (Fin n → W) × Lifts n R => T t.1 fun i => (t.2 i (t.1 i)).1) =
      (∑ z, c z / ∏ i, pr (R (z i))) / (Fintype.card W : ℚ) ^ n := by
    rw [pr_prod fun (z : Fin n → W) (f : Lifts n R) => T z fun i => (f i (z i)).1, Fintype.card_fun,
      Fintype.card_fin, Nat.cast_pow]
    congr 1
    refine sum_congr rfl fun z _ => ?_
    rw [lift_eval R hex z (T z), eq_div_iff (prod_pos fun i _ => hRp (z i)).ne', lift_count]
  have hρ : ∀ z : Fin n → W, |1 - ∏ i, (a / Fintype.card W / pr (R (z i)))| ≤ (u / l) ^ n - 1 := by
    intro z
    have hb : ∀ w, l / u ≤ a / Fintype.card W / pr (R w) ∧ a / Fintype.card W / pr (R w) ≤ u / l := by
      intro w
      obtain ⟨b1, b2⟩ := hR w
      have c1 : l / p ≤ a / Fintype.card W := by rw [le_div_iff₀ hN]; linarith
      have c2 : a / Fintype.card W ≤ u / p := by rw [div_le_iff₀ hN]; linarith
      constructor
      · rw [le_div_iff₀ (hRp w)]
        refine le_trans (mul_le_mul_of_nonneg_left b2 (by positivity)) (le_trans (le_of_eq ?_) c1)
        field_simp
      · rw [div_le_iff₀ (hRp w)]
        refine c2.trans (le_trans (le_of_eq ?_) (mul_le_mul_of_nonneg_left b1 (by positivity)))
        field_simp
    have l1 : (l / u) ^ n ≤ ∏ i, (a / Fintype.card W / pr (R (z i))) := by
      have := prod_le_prod (s := (univ : Finset (Fin n))) (fun i _ => by positivity) fun i _ => (hb (z i)).1
      rwa [prod_const, card_univ, Fintype.card_fin] at this
    have u1 : ∏ i, (a / Fintype.card W / pr (R (z i))) ≤ (u / l) ^ n := by
      have := prod_le_prod (s := (univ : Finset (Fin n)))
        (fun i _ => div_nonneg (div_nonneg ha0.le hN.le) (hRp (z i)).le) fun i _ => (hb (z i)).2
      rwa [prod_const, card_univ, Fintype.card_fin] at this
    have hr := ratio_aux hl hlu n
    rw [abs_le]
    constructor <;> linarith
  have hr0 : 0 ≤ (u / l) ^ n - 1 := by
    have : (1 : ℚ) ≤ (u / l) ^ n := one_le_pow₀ ((one_le_div hl).2 hlu)
    linarith
  have ediff : ∑ z, c z - a ^ n * ((∑ z, c z / ∏ i, pr (R (z i))) / (Fintype.card W : ℚ) ^ n) =
      ∑ z, c z * (1 - ∏ i, (a / Fintype.card W / pr (R (z i)))) := by
    rw [sum_div, mul_sum, ← sum_sub_distrib]
    refine sum_congr rfl fun z _ => ?_
    rw [prod_div_distrib, prod_const, card_univ, Fintype.card_fin, div_pow]
    have : (∏ i, pr (R (z i))) ≠ 0 := (prod_pos fun i _ => hRp (z i)).ne'
    field_simp
  rw [hreal, hideal, ediff]
  refine (abs_sum_le_sum_abs _ _).trans ?_
  calc ∑ z, |c z * (1 - ∏ i, (a / Fintype.card W / pr (R (z i))))|
      ≤ ∑ z, c z * ((u / l) ^ n - 1) := by
        refine sum_le_sum fun z _ => ?_
        rw [abs_mul, abs_of_nonneg (hc0 z)]
        exact mul_le_mul_of_nonneg_left (hρ z) (hc0 z)
    _ = (∑ z, c z) * ((u / l) ^ n - 1) := by rw [sum_mul]
    _ ≤ ((u / l) ^ n - 1) * a ^ n := by
        rw [mul_comm]
        exact mul_le_mul_of_nonneg_left hle hr0

/-! ### Changing the function where the loops end -/

section
variable {D : Finset X} (t : Fin n → D) (ht : Function.Injective t)

/-- A function as its values at the strings `t` and its other values. -/
noncomputable def splitAt : (D → Y) ≃ (Fin n → Y) × ({d // ¬ d ∈ Set.range t} → Y) := by
  classical
  exact (Equiv.piEquivPiSubtypeProd (fun d => d ∈ Set.range t) fun _ => Y).trans
    (Equiv.prodCongr (Equiv.arrowCongr (Equiv.ofInjective t ht).symm (Equiv.refl Y)) (Equiv.refl _))

theorem splitAt_fst (f : D → Y) (i : Fin n) : (splitAt t ht f).1 i = f (t i) := rfl

theorem splitAt_snd (f : D → Y) (d : {d // ¬ d ∈ Set.range t}) : (splitAt t ht f).2 d = f d.1 := rfl

theorem extend_splitAt (a a' : Fin n → Y) (g : {d // ¬ d ∈ Set.range t} → Y) :
    Function.extend t a' ((splitAt t ht).symm (a, g)) = (splitAt t ht).symm (a', g) := by
  apply (splitAt t ht).injective
  rw [Equiv.apply_symm_apply]
  refine Prod.ext ?_ ?_
  · funext i
    rw [splitAt_fst, ht.extend_apply]
  · funext d
    rw [splitAt_snd, Function.extend_apply' _ _ _ (fun ⟨i, hi⟩ => d.2 ⟨i, hi⟩)]
    have := congrFun (congrArg Prod.snd ((splitAt t ht).apply_symm_apply (a, g))) d
    rw [splitAt_snd] at this
    exact this

theorem pr_splitAt (S : (D → Y) → Prop) : pr S = (∑ g : {d // ¬ d ∈ Set.range t} → Y,
    pr (fun a : Fin n → Y => S ((splitAt t ht).symm (a, g)))) /
      Fintype.card ({d // ¬ d ∈ Set.range t} → Y) := by
  rw [← pr_equiv (splitAt t ht).symm S,
    pr_swap fun (a : Fin n → Y) (g : {d // ¬ d ∈ Set.range t} → Y) => S ((splitAt t ht).symm (a, g)),
    pr_prod fun (g : {d // ¬ d ∈ Set.range t} → Y) (a : Fin n → Y) => S ((splitAt t ht).symm (a, g))]

theorem ends_splitAt (next : Y → Option X) (B : X → Y) (k : Nat) (xs : Fin n → X)
    (a : Fin n → Y) (g : {d // ¬ d ∈ Set.range t} → Y) :
    Ends (graft B D ((splitAt t ht).symm (a, g))) next k xs t ↔ (∀ i, next (a i) = none) ∧
      ∃ a', Ends (graft B D ((splitAt t ht).symm (a', g))) next k xs t := by
  have hv : ∀ (b : Fin n → Y) i, (splitAt t ht).symm (b, g) (t i) = b i := by
    intro b i
    have := congrFun (congrArg Prod.fst ((splitAt t ht).apply_symm_apply (b, g))) i
    rwa [splitAt_fst] at this
  constructor
  · intro h
    refine ⟨fun i => ?_, a, h⟩
    have := term_accepts (h i)
    rwa [graft_mem B (t i).2, hv] at this
  · rintro ⟨h1, a', h2⟩
    refine ends_congr h2 (fun i => by rw [hv]; exact h1 i) fun d hd => ?_
    rw [← extend_splitAt t ht a' a g, Function.extend_apply' _ _ _ (fun ⟨i, hi⟩ => hd ⟨i, hi⟩)]

variable (next : Y → Option X) (R : W → Y → Prop) (h1 : ∀ w y, R w y → next y = none)
    (h2 : ∀ y, next y = none → ∃ w, R w y) (h3 : ∀ w w' y, R w y → R w' y → w = w') {l u p : ℚ}
    (hl : 0 < l) (hlu : l ≤ u) (hp : 0 < p) (hR : ∀ w, l / p ≤ pr (R w) ∧ pr (R w) ≤ u / p)
include ht h1 h2 h3 hl hlu hp hR

theorem close_at (B : X → Y) (k : Nat) (xs : Fin n → X) (Q : (D → Y) → (Fin n → W) → Prop) :
    |pr (fun f : D → Y => Ends (graft B D f) next k xs t ∧ ∃ z, (∀ i, R (z i) (f (t i))) ∧ Q f z) -
      pr (fun s : (D → Y) × ((Fin n → W) × Lifts n R) => Ends (graft B D s.1) next k xs t ∧
        Q (Function.extend t (fun i => (s.2.2 i (s.2.1 i)).1) s.1) s.2.1)| ≤
      ((u / l) ^ n - 1) * pr (fun f : D → Y => Ends (graft B D f) next k xs t) := by
  classical
  have hall : pr (fun b : Fin n → Y => ∀ i, next (b i) = none) = pr (fun y => next y = none) ^ n := by
    have := Uniform.prob_pi (ι := Fin n) (α := fun _ => Y) fun _ y => next y = none
    simp only [prob_pr] at this
    rw [this, prod_const, card_univ, Fintype.card_fin]
  have hv : ∀ (b : Fin n → Y) (g : {d // ¬ d ∈ Set.range t} → Y) i, (splitAt t ht).symm (b, g) (t i) = b i := by
    intro b g i
    have := congrFun (congrArg Prod.fst ((splitAt t ht).apply_symm_apply (b, g))) i
    rwa [splitAt_fst] at this
  have hr0 : 0 ≤ (u / l) ^ n - 1 := by
    have : (1 : ℚ) ≤ (u / l) ^ n := one_le_pow₀ ((one_le_div hl).2 hlu)
    linarith
  have hG : (0 : ℚ) < Fintype.card ({d // ¬ d ∈ Set.range t} → Y) := by exact_mod_cast Fintype.card_pos
  rw [pr_splitAt t ht fun f => Ends (graft B D f) next k xs t ∧ ∃ z, (∀ i, R (z i) (f (t i))) ∧ Q f z,
    pr_splitAt t ht fun f => Ends (graft B D f) next k xs t]
  have e2 : pr (fun s : (D → Y) × ((Fin n → W) × Lifts n R) => Ends (graft B D s.1) next k xs t ∧
        Q (Function.extend t (fun i => (s.2.2 i (s.2.1 i)).1) s.1) s.2.1) =
      (∑ g : {d // ¬ d ∈ Set.range t} → Y, pr (fun s : (Fin n → Y) × ((Fin n → W) × Lifts n R) =>
        (∀ i, next (s.1 i) = none) ∧ (∃ a', Ends (graft B D ((splitAt t ht).symm (a', g))) next k xs t) ∧
          Q ((splitAt t ht).symm (fun i => (s.2.2 i (s.2.1 i)).1, g)) s.2.1)) /
        Fintype.card ({d // ¬ d ∈ Set.range t} → Y) := by
    rw [pr_swap fun (f : D → Y) (s : (Fin n → W) × Lifts n R) => Ends (graft B D f) next k xs t ∧
        Q (Function.extend t (fun i => (s.2 i (s.1 i)).1) f) s.1,
      pr_prod fun (s : (Fin n → W) × Lifts n R) (f : D → Y) => Ends (graft B D f) next k xs t ∧
        Q (Function.extend t (fun i => (s.2 i (s.1 i)).1) f) s.1]
    have : ∀ s : (Fin n → W) × Lifts n R, pr (fun f : D → Y => Ends (graft B D f) next k xs t ∧
        Q (Function.extend t (fun i => (s.2 i (s.1 i)).1) f) s.1) =
        (∑ g : {d // ¬ d ∈ Set.range t} → Y, pr (fun a : Fin n → Y =>
        (∀ i, next (a i) = none) ∧ (∃ a', Ends (graft B D ((splitAt t ht).symm (a', g))) next k xs t) ∧
          Q ((splitAt t ht).symm (fun i => (s.2 i (s.1 i)).1, g)) s.1)) /
        Fintype.card ({d // ¬ d ∈ Set.range t} → Y) := by
      intro s
      rw [pr_splitAt t ht]
      congr 1
      refine sum_congr rfl fun g _ => pr_congr fun a => ?_
      rw [ends_splitAt t ht, extend_splitAt t ht, and_assoc]
    rw [sum_congr rfl fun s _ => this s, ← sum_div, sum_comm, div_right_comm, sum_div]
    congr 1
    refine sum_congr rfl fun g _ => ?_
    rw [pr_swap fun (a : Fin n → Y) (s : (Fin n → W) × Lifts n R) =>
        (∀ i, next (a i) = none) ∧ (∃ a', Ends (graft B D ((splitAt t ht).symm (a', g))) next k xs t) ∧
          Q ((splitAt t ht).symm (fun i => (s.2 i (s.1 i)).1, g)) s.1,
      pr_prod fun (s : (Fin n → W) × Lifts n R) (a : Fin n → Y) =>
        (∀ i, next (a i) = none) ∧ (∃ a', Ends (graft B D ((splitAt t ht).symm (a', g))) next k xs t) ∧
          Q ((splitAt t ht).symm (fun i => (s.2 i (s.1 i)).1, g)) s.1]
  rw [e2, ← sub_div, ← sum_sub_distrib, abs_div, abs_of_pos hG, mul_div_assoc']
  apply div_le_div_of_nonneg_right _ hG.le
  rw [mul_sum]
  refine (abs_sum_le_sum_abs _ _).trans (sum_le_sum fun g _ => ?_)
  by_cases hg : ∃ a', Ends (graft B D ((splitAt t ht).symm (a', g))) next k xs t
  · have c1 : pr (fun a : Fin n → Y => Ends (graft B D ((splitAt t ht).symm (a, g))) next k xs t ∧
        ∃ z, (∀ i, R (z i) ((splitAt t ht).symm (a, g) (t i))) ∧ Q ((splitAt t ht).symm (a, g)) z) =
        pr (fun a : Fin n → Y => ∃ z, (∀ i, R (z i) (a i)) ∧ Q ((splitAt t ht).symm (a, g)) z) := by
      refine pr_congr fun a => ?_
      simp only [hv]
      rw [ends_splitAt t ht]
      exact ⟨fun h => h.2, fun ⟨z, hz, hq⟩ => ⟨⟨fun i => h1 _ _ (hz i), hg⟩, z, hz, hq⟩⟩
    have c2 : pr (fun s : (Fin n → Y) × ((Fin n → W) × Lifts n R) =>
        (∀ i, next (s.1 i) = none) ∧ (∃ a', Ends (graft B D ((splitAt t ht).symm (a', g))) next k xs t) ∧
          Q ((splitAt t ht).symm (fun i => (s.2.2 i (s.2.1 i)).1, g)) s.2.1) =
        pr (fun y => next y = none) ^ n * pr (fun s : (Fin n → W) × Lifts n R =>
          Q ((splitAt t ht).symm (fun i => (s.2 i (s.1 i)).1, g)) s.1) := by
      rw [← hall, ← pr_indep]
      exact pr_congr fun s => ⟨fun h => ⟨h.1, h.2.2⟩, fun h => ⟨h.1, hg, h.2⟩⟩
    have c3 : pr (fun a : Fin n → Y => Ends (graft B D ((splitAt t ht).symm (a, g))) next k xs t) =
        pr (fun y => next y = none) ^ n := by
      rw [← hall]
      refine pr_congr fun a => ?_
      rw [ends_splitAt t ht]
      exact ⟨fun h => h.1, fun h => ⟨h, hg⟩⟩
    rw [c1, c2, c3]
    exact weights next R h1 h2 h3 hl hlu hp hR fun z a => Q ((splitAt t ht).symm (a, g)) z
  · rw [pr_false (S := fun a : Fin n → Y => Ends (graft B D ((splitAt t ht).symm (a, g))) next k xs t ∧
        ∃ z, (∀ i, R (z i) ((splitAt t ht).symm (a, g) (t i))) ∧ Q ((splitAt t ht).symm (a, g)) z)
        fun a h => hg ⟨a, h.1⟩,
      pr_false (S := fun s : (Fin n → Y) × ((Fin n → W) × Lifts n R) =>
        (∀ i, next (s.1 i) = none) ∧ (∃ a', Ends (graft B D ((splitAt t ht).symm (a', g))) next k xs t) ∧
          Q ((splitAt t ht).symm (fun i => (s.2.2 i (s.2.1 i)).1, g)) s.2.1) fun s h => hg h.2.1]
    simp only [sub_self, abs_zero]
    exact mul_nonneg hr0 (pr_nonneg _)
end

/-- The function, changed where the loops end so that they give the results `z`. -/
noncomputable def program (next : Y → Option X) (R : W → Y → Prop) {D : Finset X} (B : X → Y) (k : Nat)
    (xs : Fin n → X) (f : D → Y) (z : Fin n → W) (s : Lifts n R) : D → Y := by
  classical
  exact if h : ∃ t : Fin n → D, Function.Injective t ∧ Ends (graft B D f) next k xs t then
    Function.extend h.choose (fun i => (s i (z i)).1) f else f

theorem program_ends {next : Y → Option X} {R : W → Y → Prop} {D : Finset X} {B : X → Y} {k : Nat}
    {xs : Fin n → X} {f : D → Y} {t : Fin n → D} (ht : Function.Injective t)
    (he : Ends (graft B D f) next k xs t) (z : Fin n → W) (s : Lifts n R) :
    program next R B k xs f z s = Function.extend t (fun i => (s i (z i)).1) f := by
  have h : ∃ t : Fin n → D, Function.Injective t ∧ Ends (graft B D f) next k xs t := ⟨t, ht, he⟩
  have e : h.choose = t := by
    funext i
    exact Subtype.ext (Option.some.inj ((h.choose_spec.2 i).symm.trans (he i)))
  rw [program, dif_pos h, e]

theorem ends_bound (next : Y → Option X) {D : Finset X} (hc : ∀ y z, next y = some z → z ∈ D) {γ ν : ℚ}
    (hγ0 : 0 ≤ γ) (hγ : ∀ z, pr (fun y => next y = some z) ≤ γ) (B : X → Y) (k : Nat) (xs : Fin n → X)
    (hxs : ∀ i, xs i ∈ D) (hinj : Function.Injective xs)
    (hν : ∀ i, pr (fun f : D → Y => term (graft B D f) next k (xs i) = none) ≤ ν) :
    pr (fun f : D → Y => ¬ ∃ t : Fin n → D, Function.Injective t ∧ Ends (graft B D f) next k xs t) ≤
      n * ν + n ^ 2 * (4 * k ^ 2 * γ) := by
  classical
  have hγ' : ∀ z, prob (fun y => next y = some z) ≤ γ := fun z => by rw [prob_pr]; exact hγ z
  have hcov : ∀ f : D → Y, (¬ ∃ t : Fin n → D, Function.Injective t ∧ Ends (graft B D f) next k xs t) →
      (∃ i ∈ (univ : Finset (Fin n)), term (graft B D f) next k (xs i) = none) ∨
      ∃ ij ∈ (univ : Finset (Fin n × Fin n)), ij.1 ≠ ij.2 ∧
        Meet (graft B D f) next k (xs ij.2) k (xs ij.1) ∅ := by
    intro f hf
    by_cases hs : ∀ i, ∃ t, term (graft B D f) next k (xs i) = some t
    · right
      choose t ht using hs
      have hD : ∀ i, t i ∈ D := fun i => term_mem hc (hxs i) (ht i)
      by_contra hno
      apply hf
      refine ⟨fun i => ⟨t i, hD i⟩, fun i j hij => ?_, ht⟩
      by_contra hne
      have hm : ¬ Meet (graft B D f) next k (xs j) k (xs i) ∅ := fun h =>
        hno ⟨(i, j), mem_univ _, hne, h⟩
      refine term_not_meet (ht j) (ht i) hm ?_ (congrArg Subtype.val hij)
      simp only [insert_empty_eq, mem_singleton]
      exact fun h => hne (hinj h.symm)
    · left
      push Not at hs
      obtain ⟨i, hi⟩ := hs
      refine ⟨i, mem_univ _, ?_⟩
      cases h : term (graft B D f) next k (xs i) with
      | none => rfl
      | some t => exact absurd h (hi t)
  refine (pr_mono hcov).trans ((pr_or_le _ _).trans (add_le_add ?_ ?_))
  · have := prob_exists_le univ (fun i (f : D → Y) => term (graft B D f) next k (xs i) = none) _ fun f h => h
    simp only [prob_pr] at this
    refine this.trans ((sum_le_sum fun i _ => hν i).trans_eq ?_)
    rw [sum_const, nsmul_eq_mul, card_univ, Fintype.card_fin]
  · have := prob_exists_le univ (fun (ij : Fin n × Fin n) (f : D → Y) => ij.1 ≠ ij.2 ∧
      Meet (graft B D f) next k (xs ij.2) k (xs ij.1) ∅) _ fun f h => h
    simp only [prob_pr] at this
    refine this.trans
      ((sum_le_sum (g := fun _ => 4 * (k : ℚ) ^ 2 * γ) fun ij _ => ?_).trans_eq ?_)
    · by_cases hne : ij.1 = ij.2
      · refine le_trans (le_of_eq (pr_false ?_)) (by positivity)
        exact fun f h => h.1 hne
      · have mb := meet_bound next hγ0 hγ' k (xs ij.2) k D ∅ B (xs ij.1)
          (hxs _) (hxs _) (fun h => hne (hinj h)) fun y z h => Or.inl (hc y z h)
        simp only [prob_pr] at mb
        refine (pr_mono fun f h => h.2).trans (mb.trans ?_)
        apply mul_le_mul_of_nonneg_right _ hγ0
        rw [card_empty]
        rcases Nat.eq_zero_or_pos k with h | h
        · rw [h]; simp
        · have : (1 : ℚ) ≤ k := by exact_mod_cast h
          push_cast
          nlinarith
    · rw [sum_const, nsmul_eq_mul, card_univ, Fintype.card_prod, Fintype.card_fin]
      push_cast
      ring

/-- The function with the results of the loops is close to a changed function with independent uniform
results. -/
theorem program_close (next : Y → Option X) {D : Finset X} (hc : ∀ y z, next y = some z → z ∈ D) {γ ν : ℚ}
    (hγ0 : 0 ≤ γ) (hγ : ∀ z, pr (fun y => next y = some z) ≤ γ) (B : X → Y) (k : Nat) (xs : Fin n → X)
    (hxs : ∀ i, xs i ∈ D) (hinj : Function.Injective xs)
    (hν : ∀ i, pr (fun f : D → Y => term (graft B D f) next k (xs i) = none) ≤ ν)
    (R : W → Y → Prop) (h1 : ∀ w y, R w y → next y = none)
    (h2 : ∀ y, next y = none → ∃ w, R w y) (h3 : ∀ w w' y, R w y → R w' y → w = w') {l u p : ℚ}
    (hl : 0 < l) (hlu : l ≤ u) (hp : 0 < p) (hR : ∀ w, l / p ≤ pr (R w) ∧ pr (R w) ≤ u / p)
    (Q : (D → Y) → (Fin n → W) → Prop) :
    |pr (fun f : D → Y => ∃ z, (∀ i, ∃ t, term (graft B D f) next k (xs i) = some t ∧
        R (z i) (graft B D f t)) ∧ Q f z) -
      pr (fun s : (D → Y) × ((Fin n → W) × Lifts n R) =>
        Q (program next R B k xs s.1 s.2.1 s.2.2) s.2.1)| ≤
      (u / l) ^ n - 1 + (n * ν + n ^ 2 * (4 * k ^ 2 * γ)) := by
  classical
  have hr0 : 0 ≤ (u / l) ^ n - 1 := by
    have : (1 : ℚ) ≤ (u / l) ^ n := one_le_pow₀ ((one_le_div hl).2 hlu)
    linarith
  have hex : ∀ w, Nonempty {y // R w y} := by
    intro w
    by_contra hno
    rw [nonempty_subtype, not_exists] at hno
    have := lt_of_lt_of_le (by positivity : 0 < l / p) (hR w).1
    rw [pr_false hno] at this
    exact lt_irrefl _ this
  have bad := ends_bound next hc hγ0 hγ B k xs hxs hinj hν
  let Ts := univ.filter fun t : Fin n → D => Function.Injective t
  have hT : ∀ f : D → Y, (∃ t : Fin n → D, Function.Injective t ∧ Ends (graft B D f) next k xs t) ↔
      ∃ t ∈ Ts, Ends (graft B D f) next k xs t := fun f => by simp [Ts]
  have uniq : ∀ (f : D → Y) (t t' : Fin n → D), Ends (graft B D f) next k xs t →
      Ends (graft B D f) next k xs t' → t = t' := fun f t t' h h' => by
    funext i
    exact Subtype.ext (Option.some.inj ((h i).symm.trans (h' i)))
  -- the real side
  let A : (D → Y) → Prop := fun f => ∃ z, (∀ i, ∃ t, term (graft B D f) next k (xs i) = some t ∧
        R (z i) (graft B D f t)) ∧ Q f z
  let G : (D → Y) → Prop := fun f => ∃ t : Fin n → D, Function.Injective t ∧ Ends (graft B D f) next k xs t
  have real : pr (fun f => A f ∧ G f) = ∑ t ∈ Ts, pr (fun f : D → Y => Ends (graft B D f) next k xs t ∧
      ∃ z, (∀ i, R (z i) (f (t i))) ∧ Q f z) := by
    rw [← pr_sum Ts _ fun f t t' h h' => uniq f t t' h.1 h'.1]
    refine pr_congr fun f => ?_
    constructor
    · rintro ⟨⟨z, hz, hq⟩, hg⟩
      obtain ⟨t, ht, he⟩ := (hT f).1 hg
      refine ⟨t, ht, he, z, fun i => ?_, hq⟩
      obtain ⟨s, hs, hr⟩ := hz i
      obtain rfl := Option.some.inj ((he i).symm.trans hs)
      rwa [graft_mem B (t i).2] at hr
    · rintro ⟨t, ht, he, z, hz, hq⟩
      refine ⟨⟨z, fun i => ⟨_, he i, ?_⟩, hq⟩, (hT f).2 ⟨t, ht, he⟩⟩
      rw [graft_mem B (t i).2]
      exact hz i
  -- the other side
  have ideal : pr (fun s : (D → Y) × ((Fin n → W) × Lifts n R) =>
      Q (program next R B k xs s.1 s.2.1 s.2.2) s.2.1 ∧ G s.1) =
      ∑ t ∈ Ts, pr (fun s : (D → Y) × ((Fin n → W) × Lifts n R) => Ends (graft B D s.1) next k xs t ∧
        Q (Function.extend t (fun i => (s.2.2 i (s.2.1 i)).1) s.1) s.2.1) := by
    rw [← pr_sum Ts _ fun s t t' h h' => uniq s.1 t t' h.1 h'.1]
    refine pr_congr fun s => ?_
    constructor
    · rintro ⟨hq, hg⟩
      obtain ⟨t, ht, he⟩ := (hT s.1).1 hg
      refine ⟨t, ht, he, ?_⟩
      rwa [program_ends (mem_filter.1 ht).2 he] at hq
    · rintro ⟨t, ht, he, hq⟩
      refine ⟨?_, (hT s.1).2 ⟨t, ht, he⟩⟩
      rwa [program_ends (mem_filter.1 ht).2 he]
  have hG1 : ∑ t ∈ Ts, pr (fun f : D → Y => Ends (graft B D f) next k xs t) ≤ 1 := by
    rw [← pr_sum Ts _ fun f t t' h h' => uniq f t t' h h']
    exact pr_le_one _
  have mid : |pr (fun f => A f ∧ G f) - pr (fun s : (D → Y) × ((Fin n → W) × Lifts n R) =>
      Q (program next R B k xs s.1 s.2.1 s.2.2) s.2.1 ∧ G s.1)| ≤ (u / l) ^ n - 1 := by
    rw [real, ideal, ← sum_sub_distrib]
    refine (abs_sum_le_sum_abs _ _).trans ((sum_le_sum fun t ht =>
      close_at t (mem_filter.1 ht).2 next R h1 h2 h3 hl hlu hp hR B k xs Q).trans ?_)
    rw [← mul_sum]
    calc _ ≤ ((u / l) ^ n - 1) * 1 := mul_le_mul_of_nonneg_left hG1 hr0
      _ = _ := mul_one _
  have r1 : pr (fun f => A f ∧ G f) ≤ pr A := pr_mono fun f h => h.1
  have r2 : pr A ≤ pr (fun f => A f ∧ G f) + pr (fun f => ¬ G f) :=
    (pr_mono fun f h => by
      by_cases hg : G f
      · exact Or.inl ⟨h, hg⟩
      · exact Or.inr hg).trans (pr_or_le _ _)
  have i1 : pr (fun s : (D → Y) × ((Fin n → W) × Lifts n R) =>
      Q (program next R B k xs s.1 s.2.1 s.2.2) s.2.1 ∧ G s.1) ≤
      pr (fun s : (D → Y) × ((Fin n → W) × Lifts n R) => Q (program next R B k xs s.1 s.2.1 s.2.2) s.2.1) :=
    pr_mono fun f h => h.1
  have i2 : pr (fun s : (D → Y) × ((Fin n → W) × Lifts n R) =>
      Q (program next R B k xs s.1 s.2.1 s.2.2) s.2.1) ≤
      pr (fun s : (D → Y) × ((Fin n → W) × Lifts n R) =>
        Q (program next R B k xs s.1 s.2.1 s.2.2) s.2.1 ∧ G s.1) +
      pr (fun s : (D → Y) × ((Fin n → W) × Lifts n R) => ¬ G s.1) :=
    (pr_mono fun s h => by
      by_cases hg : G s.1
      · exact Or.inl ⟨h, hg⟩
      · exact Or.inr hg).trans (pr_or_le _ _)
  have i3 : pr (fun s : (D → Y) × ((Fin n → W) × Lifts n R) => ¬ G s.1) = pr (fun f => ¬ G f) :=
    pr_fst (β := (Fin n → W) × Lifts n R) fun f => ¬ G f
  have hb : pr (fun f => ¬ G f) ≤ n * ν + n ^ 2 * (4 * k ^ 2 * γ) := bad
  rw [i3] at i2
  rw [abs_le] at mid ⊢
  constructor
  · linarith only [mid.1, mid.2, r1, r2, i1, i2, hb]
  · linarith only [mid.1, mid.2, r1, r2, i1, i2, hb]

end PJC.Program
