import Verif.Lemmas.Chain
import Verif.Props.OracleUniform
set_option linter.unusedSectionVars false
/-
Several loops that ask the same random function until an answer is suitable: what they end with is close
to independent values.
-/
namespace PJC.Oracle
open Finset PJC.Prob

variable {X Y : Type} [DecidableEq X]

/-- The string at which the loop ends within `k` rounds. -/
def term (o : X → Y) (next : Y → Option X) : Nat → X → Option X
  | 0, _ => none
  | k + 1, x => match next (o x) with
    | none => some x
    | some z => term o next k z

theorem term_none_running {o : X → Y} {next : Y → Option X} : ∀ {k : Nat} {x : X},
    term o next k x = none → Running o next k x
  | 0, _, _ => trivial
  | k + 1, x, h => by
    simp only [term] at h
    simp only [Running]
    split at h
    · cases h
    · next z e =>
      rw [e]
      exact term_none_running h

theorem term_accepts {o : X → Y} {next : Y → Option X} : ∀ {k : Nat} {x t : X},
    term o next k x = some t → next (o t) = none
  | 0, _, _, h => by cases h
  | k + 1, x, t, h => by
    simp only [term] at h
    split at h
    · next e => cases h; exact e
    · exact term_accepts h

/-- Only the answers that are not suitable matter for where a loop ends. -/
theorem term_congr {o o' : X → Y} {next : Y → Option X} (ho : ∀ w, next (o w) ≠ none → o' w = o w) :
    ∀ {k : Nat} {x t : X}, next (o' t) = none → term o next k x = some t → term o' next k x = some t
  | 0, _, _, _, h => by cases h
  | k + 1, x, t, ht, h => by
    simp only [term] at h ⊢
    split at h
    · cases h; rw [ht]
    · next z e =>
      rw [ho x (by rw [e]; simp), e]
      exact term_congr ho ht h

theorem term_mem {o : X → Y} {next : Y → Option X} {D : Finset X} (hc : ∀ y z, next y = some z → z ∈ D) :
    ∀ {k : Nat} {x t : X}, x ∈ D → term o next k x = some t → t ∈ D
  | 0, _, _, _, h => by cases h
  | k + 1, x, t, hx, h => by
    simp only [term] at h
    split at h
    · cases h; exact hx
    · next z e => exact term_mem hc (hc _ _ e) h

/-- The loop comes to one of the strings `S` or back to one of its own. -/
def Hit (o : X → Y) (next : Y → Option X) : Nat → X → Finset X → Prop
  | 0, _, _ => False
  | k + 1, x, S => match next (o x) with
    | none => False
    | some z => z ∈ insert x S ∨ Hit o next k z (insert x S)

/-- The loop from `x` comes to `x'`, to `S` or to itself, or it ends and the loop from `x'` then comes
to one of its strings. -/
def Meet (o : X → Y) (next : Y → Option X) (l : Nat) (x' : X) : Nat → X → Finset X → Prop
  | 0, _, _ => False
  | k + 1, x, S => match next (o x) with
    | none => Hit o next l x' (insert x S)
    | some z => z ∈ insert x' (insert x S) ∨ Meet o next l x' k z (insert x S)

/-- `Hit` after one round. -/
def contHit (o : X → Y) (next : Y → Option X) (k : Nat) (x : X) (S : Finset X) : Option X → Prop
  | none => False
  | some z => z ∈ insert x S ∨ Hit o next k z (insert x S)

/-- `Meet` after one round. -/
def contMeet (o : X → Y) (next : Y → Option X) (l : Nat) (x' : X) (k : Nat) (x : X) (S : Finset X) :
    Option X → Prop
  | none => Hit o next l x' (insert x S)
  | some z => z ∈ insert x' (insert x S) ∨ Meet o next l x' k z (insert x S)

theorem hit_cont {o : X → Y} {next : Y → Option X} {k : Nat} {x : X} {S : Finset X}
    (h : Hit o next (k + 1) x S) : contHit o next k x S (next (o x)) := by
  simp only [Hit] at h
  cases e : next (o x) <;> rw [e] at h <;> exact h

theorem meet_cont {o : X → Y} {next : Y → Option X} {l : Nat} {x' : X} {k : Nat} {x : X} {S : Finset X}
    (h : Meet o next l x' (k + 1) x S) : contMeet o next l x' k x S (next (o x)) := by
  simp only [Meet] at h
  cases e : next (o x) <;> rw [e] at h <;> exact h

theorem term_not_hit {o : X → Y} {next : Y → Option X} : ∀ {k : Nat} {x t : X} {S : Finset X},
    term o next k x = some t → ¬ Hit o next k x S → x ∉ S → t ∉ S
  | 0, _, _, _, h, _, _ => by cases h
  | k + 1, x, t, S, h, hh, hx => by
    simp only [term] at h
    simp only [Hit] at hh
    split at h
    · cases h; exact hx
    · next z e =>
      rw [e] at hh
      simp only [not_or] at hh
      have := term_not_hit h hh.2 hh.1
      exact fun h' => this (mem_insert_of_mem h')

/-- Loops that end at the same string have met. -/
theorem term_not_meet {o : X → Y} {next : Y → Option X} {l : Nat} {x' t' : X}
    (h' : term o next l x' = some t') : ∀ {k : Nat} {x t : X} {S : Finset X},
    term o next k x = some t → ¬ Meet o next l x' k x S → x' ∉ insert x S → t ≠ t'
  | 0, _, _, _, h, _, _ => by cases h
  | k + 1, x, t, S, h, hm, hx => by
    simp only [term] at h
    simp only [Meet] at hm
    split at h
    · next e =>
      cases h
      rw [e] at hm
      have := term_not_hit h' hm hx
      exact fun e => this (e ▸ mem_insert_self _ _)
    · next z e =>
      rw [e] at hm
      simp only [not_or] at hm
      refine term_not_meet h' h hm.2 fun hi => ?_
      rcases mem_insert.1 hi with hi | hi
      · exact hm.1 (hi ▸ mem_insert_self _ _)
      · exact hx hi

variable [Fintype Y] [Nonempty Y]

section
variable (next : Y → Option X) {γ : ℚ} (hγ0 : 0 ≤ γ)
include hγ0

open scoped Classical in
/-- One step: the answer at `x` leads into `A` with small probability; if not, the bound `c` holds. -/
theorem step_bound (hγ : ∀ z, prob (fun y => next y = some z) ≤ γ) {D : Finset X} {x : X} (hx : x ∈ D)
    (B : X → Y) (A : Finset X) {c : ℚ} (hc0 : 0 ≤ c) (T : (X → Y) → Prop) (S : Y → (X → Y) → Prop)
    (hT : ∀ o, T o → S (o x) o)
    (hS : ∀ y, (∀ z, next y = some z → z ∉ A) →
      prob (fun f : D.erase x → Y => S y (graft (Function.update B x y) (D.erase x) f)) ≤ c) :
    prob (fun f : D → Y => T (graft B D f)) ≤ A.card * γ + c := by
  have h0 : prob (fun f : D → Y => T (graft B D f)) ≤
      prob fun t : Y × (D.erase x → Y) => S t.1 (graft (Function.update B x t.1) (D.erase x) t.2) := by
    rw [prob_split hx]
    refine prob_mono fun t ht => ?_
    have e := graft_split B hx ((split hx).symm t)
    rw [Equiv.apply_symm_apply] at e
    have ex : graft B D ((split hx).symm t) x = t.1 := by rw [e]; simp [graft]
    have := hT _ ht
    rwa [ex, e] at this
  refine h0.trans ?_
  rw [prob_prod fun y f => S y (graft (Function.update B x y) (D.erase x) f)]
  have hb : ∀ y, prob (fun f : D.erase x → Y => S y (graft (Function.update B x y) (D.erase x) f)) ≤
      (if ∃ z ∈ A, next y = some z then 1 else 0) + c := by
    intro y
    by_cases h : ∃ z ∈ A, next y = some z
    · rw [if_pos h]
      have := prob_le_one (fun f : D.erase x → Y => S y (graft (Function.update B x y) (D.erase x) f))
      linarith
    · rw [if_neg h, zero_add]
      exact hS y fun z hz hA => h ⟨z, hA, hz⟩
  have e2 : (∑ y : Y, (if ∃ z ∈ A, next y = some z then (1 : ℚ) else 0)) / (Fintype.card Y : ℚ) =
      prob (fun y => ∃ z ∈ A, next y = some z) := by
    rw [← sum_filter, sum_const, nsmul_eq_mul, prob, mul_one]
  have e3 : prob (fun y => ∃ z ∈ A, next y = some z) ≤ A.card * γ := by
    refine (prob_exists_le A (fun z y => next y = some z) _ fun y hy => hy).trans ?_
    refine (sum_le_sum fun z _ => hγ z).trans_eq ?_
    rw [sum_const, nsmul_eq_mul]
  have hY : (Fintype.card Y : ℚ) ≠ 0 := by exact_mod_cast Fintype.card_ne_zero
  calc _ ≤ (∑ y : Y, ((if ∃ z ∈ A, next y = some z then (1 : ℚ) else 0) + c)) / (Fintype.card Y : ℚ) := by
        gcongr with y
        exact hb y
    _ ≤ _ := by
        rw [sum_add_distrib, add_div, e2, sum_const, nsmul_eq_mul, card_univ, mul_div_cancel_left₀ _ hY]
        linarith

omit hγ0 in
/-- Strings to go on with are still there when one is taken away. -/
theorem closed_erase {D A : Finset X} (h : ∀ y z, next y = some z → z ∈ D ∨ z ∈ A) (x : X) :
    ∀ y z, next y = some z → z ∈ D.erase x ∨ z ∈ insert x A := by
  intro y z hz
  by_cases e : z = x
  · right; rw [e]; exact mem_insert_self _ _
  · rcases h y z hz with h | h
    · left; exact mem_erase.2 ⟨e, h⟩
    · right; exact mem_insert_of_mem h

open scoped Classical in
theorem hit_bound (hγ : ∀ z, prob (fun y => next y = some z) ≤ γ) : ∀ (k : Nat) (D S : Finset X) (B : X → Y)
    (x : X), x ∈ D → (∀ y z, next y = some z → z ∈ D ∨ z ∈ S) →
    prob (fun f : D → Y => Hit (graft B D f) next k x S) ≤ k * (S.card + k) * γ
  | 0, D, S, B, x, _, _ => by
    refine le_trans (le_of_eq (Py.Prng.prob_false ?_)) ?_
    · exact fun f h => h
    simp
  | k + 1, D, S, B, x, hx, hn => by
    have hS : ((insert x S).card : ℚ) ≤ S.card + 1 := by exact_mod_cast card_insert_le x S
    have := step_bound next hγ0 hγ hx B (insert x S) (c := k * (S.card + 1 + k) * γ) (by positivity)
      (fun o => Hit o next (k + 1) x S)
      (fun y o => contHit o next k x S (next y)) (fun o h => hit_cont h) (by
        intro y hy
        cases hz : next y with
        | none =>
          refine le_trans (le_of_eq (Py.Prng.prob_false ?_)) ?_
          · exact fun f h => h
          positivity
        | some z =>
          have hzA := hy z hz
          have hzD : z ∈ D.erase x := ((closed_erase next hn x) y z hz).resolve_right hzA
          refine (prob_mono (T := fun f : D.erase x → Y => Hit (graft (Function.update B x y) (D.erase x) f)
            next k z (insert x S)) ?_).trans ?_
          · exact fun f h => Or.resolve_left h hzA
          refine (hit_bound hγ k _ _ _ z hzD (closed_erase next hn x)).trans ?_
          gcongr)
    refine this.trans ?_
    have h1 : ((insert x S).card : ℚ) * γ ≤ (S.card + 1) * γ := mul_le_mul_of_nonneg_right hS hγ0
    push_cast
    have h2 : (0 : ℚ) ≤ k * γ := by positivity
    nlinarith

open scoped Classical in
theorem meet_bound (hγ : ∀ z, prob (fun y => next y = some z) ≤ γ) (l : Nat) (x' : X) : ∀ (k : Nat)
    (D S : Finset X) (B : X → Y) (x : X), x ∈ D → x' ∈ D → x ≠ x' →
    (∀ y z, next y = some z → z ∈ D ∨ z ∈ S) →
    prob (fun f : D → Y => Meet (graft B D f) next l x' k x S) ≤
      (k * (S.card + 1 + k) + l * (S.card + k + l)) * γ
  | 0, D, S, B, x, _, _, _, _ => by
    refine le_trans (le_of_eq (Py.Prng.prob_false ?_)) ?_
    · exact fun f h => h
    positivity
  | k + 1, D, S, B, x, hx, hx', hne, hn => by
    have hS : ((insert x S).card : ℚ) ≤ S.card + 1 := by exact_mod_cast card_insert_le x S
    have hS' : ((insert x' (insert x S)).card : ℚ) ≤ S.card + 2 := by
      have h1 := card_insert_le x' (insert x S)
      have h2 := card_insert_le x S
      exact_mod_cast (by omega : (insert x' (insert x S)).card ≤ S.card + 2)
    have hx'' : x' ∈ D.erase x := mem_erase.2 ⟨Ne.symm hne, hx'⟩
    have := step_bound next hγ0 hγ hx B (insert x' (insert x S))
      (c := (k * (S.card + 2 + k) + l * (S.card + 1 + k + l)) * γ) (by positivity)
      (fun o => Meet o next l x' (k + 1) x S)
      (fun y o => contMeet o next l x' k x S (next y)) (fun o h => meet_cont h) (by
        intro y hy
        cases hz : next y with
        | none =>
          refine (hit_bound next hγ0 hγ l _ _ _ x' hx'' (closed_erase next hn x)).trans ?_
          apply mul_le_mul_of_nonneg_right _ hγ0
          have : (l : ℚ) * ((insert x S).card + l) ≤ l * (S.card + 1 + k + l) := by
            gcongr
            have : (0 : ℚ) ≤ k := by positivity
            linarith
          have h2 : (0 : ℚ) ≤ k * (S.card + 2 + k) := by positivity
          linarith
        | some z =>
          have hzA := hy z hz
          have hzx : z ≠ x' := fun e => hzA (e ▸ mem_insert_self _ _)
          have hzD : z ∈ D.erase x := ((closed_erase next hn x) y z hz).resolve_right
            fun h => hzA (mem_insert_of_mem h)
          refine (prob_mono (T := fun f : D.erase x → Y => Meet (graft (Function.update B x y) (D.erase x) f)
            next l x' k z (insert x S)) ?_).trans ?_
          · exact fun f h => Or.resolve_left h hzA
          refine (meet_bound hγ l x' k _ _ _ z hzD hx'' hzx (closed_erase next hn x)).trans ?_
          apply mul_le_mul_of_nonneg_right _ hγ0
          have a1 : (k : ℚ) * ((insert x S).card + 1 + k) ≤ k * (S.card + 2 + k) :=
            mul_le_mul_of_nonneg_left (by linarith) (by positivity)
          have a2 : (l : ℚ) * ((insert x S).card + k + l) ≤ l * (S.card + 1 + k + l) := by
            gcongr
          linarith)
    refine this.trans ?_
    have h1 : ((insert x' (insert x S)).card : ℚ) * γ ≤ (S.card + 2) * γ := mul_le_mul_of_nonneg_right hS' hγ0
    push_cast
    have h2 : (0 : ℚ) ≤ k * γ := by positivity
    nlinarith
end

/-! ### Where the loops end -/

variable {n : Nat}

/-- The loop from `xs i` ends at `t i`. -/
def Ends (o : X → Y) (next : Y → Option X) (k : Nat) (xs : Fin n → X) {D : Finset X} (t : Fin n → D) : Prop :=
  ∀ i, term o next k (xs i) = some (t i).1

omit [Fintype Y] [Nonempty Y] in
theorem ends_congr {next : Y → Option X} {D : Finset X} {B : X → Y} {f g : D → Y} {k : Nat} {xs : Fin n → X}
    {t : Fin n → D} (h : Ends (graft B D f) next k xs t) (hg : ∀ i, next (g (t i)) = none)
    (hfg : ∀ d, d ∉ Set.range t → g d = f d) : Ends (graft B D g) next k xs t := by
  intro i
  refine term_congr ?_ ?_ (h i)
  · intro w hw
    by_cases hD : w ∈ D
    · rw [graft_mem B hD] at hw ⊢
      rw [graft_mem B hD]
      apply hfg
      rintro ⟨j, hj⟩
      have := term_accepts (h j)
      rw [graft_mem B (t j).2, hj] at this
      exact hw this
    · rw [graft_not_mem B hD, graft_not_mem B hD]
  · rw [graft_mem B (t i).2]
    exact hg i

open scoped Classical in
/-- The answers with which the loops end are independent, given where they end. -/
theorem prob_ends (next : Y → Option X) {D : Finset X} (B : X → Y) (k : Nat) (xs : Fin n → X)
    (t : Fin n → D) (ht : Function.Injective t) : ∃ q : ℚ, ∀ S : Fin n → Y → Prop,
    prob (fun f : D → Y => Ends (graft B D f) next k xs t ∧ ∀ i, S i (f (t i))) =
      (∏ i, prob fun y => next y = none ∧ S i y) * q := by
  let e1 : (D → Y) ≃ ({d // d ∈ Set.range t} → Y) × ({d // ¬ d ∈ Set.range t} → Y) :=
    Equiv.piEquivPiSubtypeProd (fun d => d ∈ Set.range t) fun _ => Y
  let e2 : ({d // d ∈ Set.range t} → Y) ≃ (Fin n → Y) :=
    Equiv.arrowCongr (Equiv.ofInjective t ht).symm (Equiv.refl Y)
  let Q : ({d // ¬ d ∈ Set.range t} → Y) → Prop := fun g =>
    ∃ h, Ends (graft B D (e1.symm (h, g))) next k xs t
  refine ⟨prob Q, fun S => ?_⟩
  have e : ∀ f : D → Y, (Ends (graft B D f) next k xs t ∧ ∀ i, S i (f (t i))) ↔
      (∀ i, next (e2 (e1 f).1 i) = none ∧ S i (e2 (e1 f).1 i)) ∧ Q (e1 f).2 := by
    intro f
    have hv : ∀ i, e2 (e1 f).1 i = f (t i) := fun i => rfl
    simp only [hv]
    constructor
    · rintro ⟨h1, h2⟩
      refine ⟨fun i => ⟨?_, h2 i⟩, (e1 f).1, ?_⟩
      · have := term_accepts (h1 i)
        rwa [graft_mem B (t i).2] at this
      · rw [Prod.mk.eta, Equiv.symm_apply_apply]
        exact h1
    · rintro ⟨h1, h, h2⟩
      refine ⟨ends_congr h2 (fun i => (h1 i).1) fun d hd => ?_, fun i => (h1 i).2⟩
      have : e1.symm (h, (e1 f).2) d = (e1 f).2 ⟨d, hd⟩ := by
        show (Equiv.piEquivPiSubtypeProd (fun d => d ∈ Set.range t) fun _ => Y).symm (h, (e1 f).2) d = _
        rw [Equiv.piEquivPiSubtypeProd_symm_apply]
        exact dif_neg hd
      rw [this]
      rfl
  rw [prob_congr e]
  have h1 := prob_equiv e1 fun u => (∀ i, next (e2 u.1 i) = none ∧ S i (e2 u.1 i)) ∧ Q u.2
  rw [h1]
  have h2 := Py.Prng.prob_indep (fun u => ∀ i, next (e2 u i) = none ∧ S i (e2 u i)) Q
  have h3 := prob_equiv e2 fun u => ∀ i, next (u i) = none ∧ S i (u i)
  have h4 := Uniform.prob_pi (ι := Fin n) (α := fun _ => Y) fun i y => next y = none ∧ S i y
  have h5 : prob (fun u : {d // d ∈ Set.range t} → Y => ∀ i, next (e2 u i) = none ∧ S i (e2 u i)) =
      ∏ i, prob fun y => next y = none ∧ S i y := by
    rw [← h4]
    refine Eq.trans ?_ (h3.trans ?_)
    · convert rfl
    · convert rfl
  rw [← h5, ← h2]

open scoped Classical in
theorem prob_joint_ends (next : Y → Option X) {D : Finset X} (B : X → Y) (k : Nat) (xs : Fin n → X) :
    ∃ q : ℚ, ∀ S : Fin n → Y → Prop,
    prob (fun f : D → Y => ∃ t ∈ univ.filter fun t : Fin n → D => Function.Injective t,
      Ends (graft B D f) next k xs t ∧ ∀ i, S i (f (t i))) = (∏ i, prob fun y => next y = none ∧ S i y) * q := by
  have h : ∀ t : Fin n → D, ∃ q : ℚ, Function.Injective t → ∀ S : Fin n → Y → Prop,
      prob (fun f : D → Y => Ends (graft B D f) next k xs t ∧ ∀ i, S i (f (t i))) =
        (∏ i, prob fun y => next y = none ∧ S i y) * q := by
    intro t
    by_cases ht : Function.Injective t
    · obtain ⟨q, hq⟩ := prob_ends next B k xs t ht
      exact ⟨q, fun _ => hq⟩
    · exact ⟨0, fun h => absurd h ht⟩
  choose q hq using h
  refine ⟨∑ t ∈ univ.filter fun t : Fin n → D => Function.Injective t, q t, fun S => ?_⟩
  rw [mul_sum]
  refine Eq.trans (by convert rfl) ((Uniform.prob_sum (univ.filter fun t : Fin n → D => Function.Injective t)
    (fun t (f : D → Y) => Ends (graft B D f) next k xs t ∧ ∀ i, S i (f (t i))) ?_).trans ?_)
  rotate_left
  · exact sum_congr rfl fun t ht => hq t (mem_filter.1 ht).2 S
  · intro f t t' h h'
    funext i
    exact Subtype.ext (Option.some.inj ((h.1 i).symm.trans (h'.1 i)))

/-! ### The results are close to independent and uniform -/

theorem ratio_aux {l u : ℚ} (hl : 0 < l) (hlu : l ≤ u) (n : Nat) : 1 - (l / u) ^ n ≤ (u / l) ^ n - 1 := by
  have hu : 0 < u := hl.trans_le hlu
  have e : (l / u) ^ n = 1 / (u / l) ^ n := by
    rw [← one_div_pow, one_div_div]
  rw [e]
  have ht : (0 : ℚ) < (u / l) ^ n := by positivity
  generalize (u / l) ^ n = t at ht
  have : 1 - 1 / t = (t - 1) / t := by field_simp
  rw [this, div_le_iff₀ ht]
  nlinarith [sq_nonneg (t - 1)]

open scoped Classical in
theorem chains_close (next : Y → Option X) {D : Finset X} (hc : ∀ y z, next y = some z → z ∈ D) {γ ν : ℚ}
    (hγ0 : 0 ≤ γ) (hγ : ∀ z, prob (fun y => next y = some z) ≤ γ) (B : X → Y) (k : Nat) (xs : Fin n → X)
    (hxs : ∀ i, xs i ∈ D) (hinj : Function.Injective xs)
    (hν : ∀ i, prob (fun f : D → Y => term (graft B D f) next k (xs i) = none) ≤ ν)
    {W : Type} [Fintype W] [Nonempty W] (R : W → Y → Prop) (h1 : ∀ w y, R w y → next y = none)
    (h2 : ∀ y, next y = none → ∃ w, R w y) (h3 : ∀ w w' y, R w y → R w' y → w = w') {l u p : ℚ}
    (hl : 0 < l) (hlu : l ≤ u) (hp : 0 < p) (hR : ∀ w, l / p ≤ prob (R w) ∧ prob (R w) ≤ u / p)
    (E : Finset (Fin n → W)) :
    |prob (fun f : D → Y => ∃ z ∈ E, ∀ i, ∃ t, term (graft B D f) next k (xs i) = some t ∧
        R (z i) (graft B D f t)) - E.card / (Fintype.card W : ℚ) ^ n| ≤
      (u / l) ^ n - 1 + (n * ν + n ^ 2 * (4 * k ^ 2 * γ)) := by
  have hN : (0 : ℚ) < Fintype.card W := by exact_mod_cast Fintype.card_pos
  have hu : 0 < u := hl.trans_le hlu
  obtain ⟨q, hq⟩ := prob_joint_ends next (D := D) B k xs
  let G : (D → Y) → Prop := fun f => ∃ t ∈ univ.filter fun t : Fin n → D => Function.Injective t,
    Ends (graft B D f) next k xs t
  let A : (D → Y) → Prop := fun f => ∃ z ∈ E, ∀ i, ∃ t, term (graft B D f) next k (xs i) = some t ∧
    R (z i) (graft B D f t)
  -- acceptance
  obtain ⟨a, ha⟩ : ∃ a : ℚ, a = prob fun y => next y = none := ⟨_, rfl⟩
  have hsum : a = ∑ w, prob (R w) := by
    rw [ha, ← Uniform.prob_sum univ R fun y b c hb hc => h3 b c y hb hc]
    exact prob_congr fun y => ⟨fun h => (h2 y h).imp fun w hw => ⟨mem_univ _, hw⟩,
      fun ⟨w, _, hw⟩ => h1 w y hw⟩
  have ha1 : (Fintype.card W : ℚ) * (l / p) ≤ a := by
    rw [hsum]
    refine le_trans (le_of_eq ?_) (sum_le_sum fun w _ => (hR w).1)
    rw [sum_const, nsmul_eq_mul, card_univ]
  have ha2 : a ≤ (Fintype.card W : ℚ) * (u / p) := by
    rw [hsum]
    refine (sum_le_sum fun w _ => (hR w).2).trans_eq ?_
    rw [sum_const, nsmul_eq_mul, card_univ]
  have ha0 : 0 < a := lt_of_lt_of_le (by positivity) ha1
  have hw : ∀ w, l / u / Fintype.card W ≤ prob (R w) / a ∧ prob (R w) / a ≤ u / l / Fintype.card W := by
    intro w
    obtain ⟨b1, b2⟩ := hR w
    constructor
    · rw [le_div_iff₀ ha0]
      refine le_trans (mul_le_mul_of_nonneg_left ha2 (by positivity)) (le_trans (le_of_eq ?_) b1)
      field_simp
    · rw [div_le_iff₀ ha0]
      refine b2.trans (le_trans (le_of_eq ?_) (mul_le_mul_of_nonneg_left ha1 (by positivity)))
      field_simp
  -- the good event
  have hG : prob G = a ^ n * q := by
    have := hq fun _ _ => True
    simp only [implies_true, and_true] at this
    rw [show prob G = _ from this, prod_const, card_univ, Fintype.card_fin, ha]
  let M : ℚ := ∑ z ∈ E, ∏ i, (prob (R (z i)) / a)
  have hAG : prob (fun f => A f ∧ G f) = prob G * M := by
    have e : ∀ f, (A f ∧ G f) ↔ ∃ z ∈ E, ∃ t ∈ univ.filter fun t : Fin n → D => Function.Injective t,
        Ends (graft B D f) next k xs t ∧ ∀ i, R (z i) (f (t i)) := by
      intro f
      constructor
      · rintro ⟨⟨z, hz, hzi⟩, t, ht, he⟩
        refine ⟨z, hz, t, ht, he, fun i => ?_⟩
        obtain ⟨s, hs, hr⟩ := hzi i
        obtain rfl := Option.some.inj ((he i).symm.trans hs)
        rwa [graft_mem B (t i).2] at hr
      · rintro ⟨z, hz, t, ht, he, hr⟩
        refine ⟨⟨z, hz, fun i => ⟨_, he i, ?_⟩⟩, t, ht, he⟩
        rw [graft_mem B (t i).2]
        exact hr i
    rw [prob_congr e, hG, mul_sum]
    refine Eq.trans (by convert rfl) ((Uniform.prob_sum E (fun z (f : D → Y) =>
      ∃ t ∈ univ.filter fun t : Fin n → D => Function.Injective t,
        Ends (graft B D f) next k xs t ∧ ∀ i, R (z i) (f (t i))) ?_).trans ?_)
    rotate_left
    · refine sum_congr rfl fun z _ => ?_
      rw [hq, prod_div_distrib, prod_const, card_univ, Fintype.card_fin]
      have : ∀ i, prob (fun y => next y = none ∧ R (z i) y) = prob (R (z i)) := fun i =>
        prob_congr fun y => ⟨fun h => h.2, fun h => ⟨h1 _ _ h, h⟩⟩
      rw [prod_congr rfl fun i _ => this i]
      have : a ^ n ≠ 0 := by positivity
      field_simp
    · rintro f z z' ⟨t, -, he, hr⟩ ⟨t', -, he', hr'⟩
      funext i
      have : t i = t' i := Subtype.ext (Option.some.inj ((he i).symm.trans (he' i)))
      have hr' := hr' i
      rw [← this] at hr'
      exact h3 _ _ _ (hr i) hr'
  have hM0 : 0 ≤ M := sum_nonneg fun z _ => prod_nonneg fun i _ => div_nonneg (prob_nonneg _) ha0.le
  have hM1 : M ≤ 1 := by
    have : M ≤ ∑ z : Fin n → W, ∏ i, (prob (R (z i)) / a) :=
      sum_le_sum_of_subset_of_nonneg (subset_univ E) fun z _ _ =>
        prod_nonneg fun i _ => div_nonneg (prob_nonneg _) ha0.le
    refine this.trans_eq ?_
    have e := prod_univ_sum (fun _ : Fin n => (univ : Finset W)) fun _ w => prob (R w) / a
    rw [Fintype.piFinset_univ] at e
    rw [← e, ← sum_div, ← hsum, div_self ha0.ne', prod_const_one]
  -- the bad event
  have hbad : prob (fun f => ¬ G f) ≤ n * ν + n ^ 2 * (4 * k ^ 2 * γ) := by
    have hcov : ∀ f, ¬ G f → (∃ i ∈ (univ : Finset (Fin n)), term (graft B D f) next k (xs i) = none) ∨
        ∃ ij ∈ (univ : Finset (Fin n × Fin n)), ij.1 ≠ ij.2 ∧
          Meet (graft B D f) next k (xs ij.2) k (xs ij.1) ∅ := by
      intro f hf
      by_cases hs : ∀ i, ∃ t, term (graft B D f) next k (xs i) = some t
      · right
        choose t ht using hs
        have hD : ∀ i, t i ∈ D := fun i => term_mem hc (hxs i) (ht i)
        by_contra hno
        apply hf
        refine ⟨fun i => ⟨t i, hD i⟩, mem_filter.2 ⟨mem_univ _, fun i j hij => ?_⟩, ht⟩
        by_contra hne
        have hm : ¬ Meet (graft B D f) next k (xs j) k (xs i) ∅ := fun h =>
          hno ⟨(i, j), mem_univ _, hne, h⟩
        refine term_not_meet (ht j) (ht i) hm ?_ (congrArg Subtype.val hij)
        simp only [insert_empty_eq, mem_singleton]
        exact fun h => hne (hinj h.symm)
      · left
        push Not at hs
        obtain ⟨i, hi⟩ := hs
        refine ⟨i, mem_univ _, ?_⟩
        cases h : term (graft B D f) next k (xs i) with
        | none => rfl
        | some t => exact absurd h (hi t)
    refine (prob_mono hcov).trans ((prob_or_le _ _).trans (add_le_add ?_ ?_))
    · refine (prob_exists_le univ (fun i (f : D → Y) => term (graft B D f) next k (xs i) = none) _
        fun f h => h).trans ((sum_le_sum fun i _ => hν i).trans_eq ?_)
      rw [sum_const, nsmul_eq_mul, card_univ, Fintype.card_fin]
    · refine (prob_exists_le univ (fun (ij : Fin n × Fin n) (f : D → Y) => ij.1 ≠ ij.2 ∧
        Meet (graft B D f) next k (xs ij.2) k (xs ij.1) ∅) _ fun f h => h).trans
        ((sum_le_sum (g := fun _ => 4 * (k : ℚ) ^ 2 * γ) fun ij _ => ?_).trans_eq ?_)
      · by_cases hne : ij.1 = ij.2
        · refine le_trans (le_of_eq (Py.Prng.prob_false ?_)) (by positivity)
          exact fun f h => h.1 hne
        · refine (prob_mono fun f h => h.2).trans ((meet_bound next hγ0 hγ k (xs ij.2) k D ∅ B (xs ij.1)
            (hxs _) (hxs _) (fun h => hne (hinj h)) fun y z h => Or.inl (hc y z h)).trans ?_)
          apply mul_le_mul_of_nonneg_right _ hγ0
          rw [card_empty]
          rcases Nat.eq_zero_or_pos k with h | h
          · rw [h]; simp
          · have : (1 : ℚ) ≤ k := by exact_mod_cast h
            push_cast
            nlinarith
      · rw [sum_const, nsmul_eq_mul, card_univ, Fintype.card_prod, Fintype.card_fin]
        push_cast
        ring
  -- together
  have hGn : prob G + prob (fun f => ¬ G f) = 1 := by
    rw [← Py.Prng.prob_or_disjoint G (fun f => ¬ G f) fun f h h' => h' h]
    unfold prob
    rw [filter_true_of_mem fun f _ => em _, card_univ, div_self]
    exact_mod_cast Fintype.card_ne_zero
  have hA1 : prob (fun f => A f ∧ G f) ≤ prob A := prob_mono fun f h => h.1
  have hA2 : prob A ≤ prob (fun f => A f ∧ G f) + prob fun f => ¬ G f := by
    refine (prob_mono (T := fun f => (A f ∧ G f) ∨ ¬ G f) fun f h => ?_).trans (prob_or_le _ _)
    by_cases hg : G f
    · exact Or.inl ⟨h, hg⟩
    · exact Or.inr hg
  have hMclose : |M - E.card / (Fintype.card W : ℚ) ^ n| ≤ (u / l) ^ n - 1 := by
    have hP : (0 : ℚ) < (Fintype.card W : ℚ) ^ n := by positivity
    have hr := ratio_aux hl hlu n
    have hr0 : 0 ≤ (u / l) ^ n - 1 := by
      have : (1 : ℚ) ≤ (u / l) ^ n := one_le_pow₀ ((one_le_div hl).2 hlu)
      linarith
    have key : ∀ z : Fin n → W, |(∏ i, (prob (R (z i)) / a)) - 1 / (Fintype.card W : ℚ) ^ n| ≤
        ((u / l) ^ n - 1) / (Fintype.card W : ℚ) ^ n := by
      intro z
      have l1 : (l / u) ^ n / (Fintype.card W : ℚ) ^ n ≤ ∏ i, (prob (R (z i)) / a) := by
        have := prod_le_prod (s := (univ : Finset (Fin n))) (fun i _ => by positivity) fun i _ => (hw (z i)).1
        rwa [prod_const, card_univ, Fintype.card_fin, div_pow] at this
      have u1 : ∏ i, (prob (R (z i)) / a) ≤ (u / l) ^ n / (Fintype.card W : ℚ) ^ n := by
        have := prod_le_prod (s := (univ : Finset (Fin n)))
          (fun i _ => div_nonneg (prob_nonneg (R (z i))) ha0.le) fun i _ => (hw (z i)).2
        rwa [prod_const, card_univ, Fintype.card_fin, div_pow] at this
      have r1 := div_le_div_of_nonneg_right hr hP.le
      rw [sub_div, sub_div] at r1
      rw [abs_le, sub_div]
      constructor <;> linarith only [l1, u1, r1]
    have hE : (E.card : ℚ) ≤ (Fintype.card W : ℚ) ^ n := by
      have := card_le_univ E
      rw [Fintype.card_fun, Fintype.card_fin] at this
      exact_mod_cast this
    have e2 : (E.card : ℚ) / (Fintype.card W : ℚ) ^ n = ∑ z ∈ E, 1 / (Fintype.card W : ℚ) ^ n := by
      rw [sum_const, nsmul_eq_mul]; ring
    rw [e2, ← sum_sub_distrib]
    refine (abs_sum_le_sum_abs _ _).trans ((sum_le_sum fun z _ => key z).trans ?_)
    rw [sum_const, nsmul_eq_mul, mul_div_assoc', div_le_iff₀ hP, mul_comm]
    exact mul_le_mul_of_nonneg_left hE hr0
  have hn0 : 0 ≤ prob fun f => ¬ G f := prob_nonneg _
  have hAM : |prob A - M| ≤ prob fun f => ¬ G f := by
    have hg1 : prob G * M = M - prob (fun f => ¬ G f) * M := by
      rw [← eq_sub_iff_add_eq] at hGn
      rw [hGn]; ring
    have : prob (fun f => ¬ G f) * M ≤ prob fun f => ¬ G f := mul_le_of_le_one_right hn0 hM1
    have h0 : 0 ≤ prob (fun f => ¬ G f) * M := mul_nonneg hn0 hM0
    rw [hAG, hg1] at hA1 hA2
    rw [abs_le]
    constructor <;> linarith only [hA1, hA2, this, h0]
  calc |prob A - E.card / (Fintype.card W : ℚ) ^ n| ≤ |prob A - M| + |M - E.card / (Fintype.card W : ℚ) ^ n| :=
        abs_sub_le _ _ _
    _ ≤ _ := by linarith only [hAM, hMclose, hbad]

open scoped Classical in
/-- The same when there may be no result at all. -/
theorem chains_close' (next : Y → Option X) {D : Finset X} (hc : ∀ y z, next y = some z → z ∈ D) {γ ν : ℚ}
    (hγ0 : 0 ≤ γ) (hγ : ∀ z, prob (fun y => next y = some z) ≤ γ) (B : X → Y) (k : Nat) (xs : Fin n → X)
    (hxs : ∀ i, xs i ∈ D) (hinj : Function.Injective xs)
    (hν : ∀ i, prob (fun f : D → Y => term (graft B D f) next k (xs i) = none) ≤ ν)
    {W : Type} [Fintype W] (R : W → Y → Prop) (h1 : ∀ w y, R w y → next y = none)
    (h2 : ∀ y, next y = none → ∃ w, R w y) (h3 : ∀ w w' y, R w y → R w' y → w = w') {l u p : ℚ}
    (hl : 0 < l) (hlu : l ≤ u) (hp : 0 < p) (hR : ∀ w, l / p ≤ prob (R w) ∧ prob (R w) ≤ u / p)
    (E : Finset (Fin n → W)) :
    |prob (fun f : D → Y => ∃ z ∈ E, ∀ i, ∃ t, term (graft B D f) next k (xs i) = some t ∧
        R (z i) (graft B D f t)) - E.card / (Fintype.card W : ℚ) ^ n| ≤
      (u / l) ^ n - 1 + (n * ν + n ^ 2 * (4 * k ^ 2 * γ)) := by
  by_cases hW : Nonempty W
  · exact chains_close next hc hγ0 hγ B k xs hxs hinj hν R h1 h2 h3 hl hlu hp hR E
  have h0 : 0 ≤ (u / l) ^ n - 1 + (n * ν + n ^ 2 * (4 * k ^ 2 * γ)) := by
    have a1 : (1 : ℚ) ≤ (u / l) ^ n := one_le_pow₀ ((one_le_div hl).2 hlu)
    have a2 : 0 ≤ n * ν := by
      rcases Nat.eq_zero_or_pos n with h | h
      · rw [h]; simp
      · exact mul_nonneg (by positivity) ((prob_nonneg _).trans (hν ⟨0, h⟩))
    have a3 : 0 ≤ (n : ℚ) ^ 2 * (4 * k ^ 2 * γ) := by positivity
    linarith only [a1, a2, a3]
  refine le_trans (le_of_eq ?_) h0
  rw [abs_eq_zero, sub_eq_zero]
  rcases E.eq_empty_or_nonempty with rfl | ⟨z, hz⟩
  · refine (Py.Prng.prob_false ?_).trans (by simp)
    simp
  · rcases Nat.eq_zero_or_pos n with rfl | h
    · have hE : E = {z} := by
        ext w
        simp only [mem_singleton]
        exact ⟨fun _ => Subsingleton.elim _ _, fun h => h ▸ hz⟩
      rw [hE, card_singleton]
      simp only [pow_zero, Nat.cast_one, div_one]
      unfold prob
      rw [filter_true_of_mem fun f _ => ⟨z, mem_singleton_self z, fun i => i.elim0⟩, card_univ, div_self]
      exact_mod_cast Fintype.card_ne_zero
    · exact absurd ⟨z ⟨0, h⟩⟩ hW

end PJC.Oracle
