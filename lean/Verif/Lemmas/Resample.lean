import Verif.Lemmas.Oracle
import Verif.Lemmas.Close
import Mathlib.Data.Nat.Periodic
import Mathlib.Data.Nat.Count
/-
Random functions with some values drawn afresh, statistical distance as a difference of
probabilities, and sums of a periodic condition.
-/
namespace PJC.Oracle
open Finset PJC.Prob

section
variable {X Y : Type} [DecidableEq X]

/-- Exchange the value at `x` with another one. -/
def swapAtX {D : Type} [DecidableEq D] (x : D) : (Y × (D → Y)) ≃ (Y × (D → Y)) where
  toFun t := (t.2 x, Function.update t.2 x t.1)
  invFun t := (t.2 x, Function.update t.2 x t.1)
  left_inv t := by simp
  right_inv t := by simp

theorem graft_update (B : X → Y) {D : Finset X} {x : X} (hx : x ∈ D) (o : D → Y) (y : Y) :
    Function.update (graft B D o) x y = graft B D (Function.update o ⟨x, hx⟩ y) := by
  funext z
  unfold graft
  by_cases hz : z = x
  · subst hz; simp [hx]
  · by_cases hD : z ∈ D
    · simp [hz, hD]
    · simp [hz, hD]

variable [Fintype Y] [Nonempty Y]

/-- The value of a random function at one place may be drawn afresh. -/
theorem resample {D : Finset X} {x : X} (hx : x ∈ D) (B : X → Y) (S : (X → Y) → Prop)
    [DecidablePred S] :
    prob (fun t : Y × (D → Y) => S (Function.update (graft B D t.2) x t.1)) =
      prob fun o : D → Y => S (graft B D o) := by
  rw [← prob_snd (α := Y) fun o : D → Y => S (graft B D o),
    ← prob_equiv (swapAtX (Y := Y) (⟨x, hx⟩ : D))]
  refine prob_congr fun t => ?_
  rw [graft_update B hx]
  simp [swapAtX]

/-- The values at two places may be drawn afresh. -/
theorem resample2 {D : Finset X} {x z : X} (hx : x ∈ D) (hz : z ∈ D) (hne : x ≠ z) (B : X → Y)
    (S : (X → Y) → Prop) [DecidablePred S] :
    prob (fun t : Y × Y × (D → Y) =>
      S (Function.update (Function.update (graft B D t.2.2) x t.1) z t.2.1)) =
      prob fun o : D → Y => S (graft B D o) := by
  have h1 : prob (fun t : Y × Y × (D → Y) =>
      S (Function.update (Function.update (graft B D t.2.2) x t.1) z t.2.1)) =
      prob (fun t : Y × (D → Y) => S (Function.update (graft B D t.2) x t.1)) := by
    rw [prob_prod fun (y : Y) (t : Y × (D → Y)) =>
      S (Function.update (Function.update (graft B D t.2) x y) z t.1),
      prob_prod fun (y : Y) (o : D → Y) => S (Function.update (graft B D o) x y)]
    congr 1
    refine sum_congr rfl fun y _ => ?_
    rw [← resample hz B fun g => S (Function.update g x y)]
    refine prob_congr fun t => ?_
    rw [Function.update_comm hne]
  rw [h1, resample hx]

end

/-- A condition that repeats with period `L`, on an interval of length `n ≥ J L` and on the interval
shifted by `s`. -/
theorem shift_close {n L J : Nat} (hn : 0 < n) (hJ : J * L ≤ n) (φ : Nat → Prop) [DecidablePred φ]
    (hper : ∀ x, φ (x + L) ↔ φ x) (s : Nat) :
    |prob (fun o : Fin n => φ (s + o.val)) - prob (fun o : Fin n => φ o.val)| ≤
      ((n - J * L : ℕ) : ℚ) / n := by
  have card : ∀ (ψ : Nat → Prop) [DecidablePred ψ],
      (univ.filter fun o : Fin n => ψ o.val).card = Nat.count ψ n := by
    intro ψ _
    rw [Nat.count_eq_card_filter_range, card_filter, card_filter,
      Fin.sum_univ_eq_sum_range (fun i => if ψ i then 1 else 0)]
  have hp : ∀ (j : Nat) (x : Nat), φ (x + j * L) ↔ φ x := by
    intro j
    induction j with
    | zero => intro x; simp
    | succ j ih =>
      intro x
      rw [Nat.succ_mul, ← add_assoc, hper, ih]
  have per : Function.Periodic φ (J * L) := fun x => propext (hp J x)
  have hc : Nat.count (fun k => φ (s + k)) (J * L) = Nat.count φ (J * L) := by
    rw [← Nat.filter_Ico_card_eq_of_periodic s (J * L) φ per, Nat.count_eq_card_filter_range]
    refine card_nbij (fun k => s + k) ?_ ?_ ?_
    · intro k hk
      have hk := mem_filter.1 (mem_coe.1 hk)
      have := mem_range.1 hk.1
      exact mem_coe.2 (mem_filter.2 ⟨mem_Ico.2 ⟨Nat.le_add_right _ _, Nat.add_lt_add_left this s⟩, hk.2⟩)
    · intro a _ b _ hab
      simpa using hab
    · intro k hk
      have hk := mem_filter.1 (mem_coe.1 hk)
      have h1 := mem_Ico.1 hk.1
      have e : s + (k - s) = k := by omega
      refine ⟨k - s, mem_coe.2 (mem_filter.2 ⟨mem_range.2 (by omega), ?_⟩), e⟩
      rw [e]
      exact hk.2
  unfold prob
  rw [card (fun k => φ (s + k)), card φ, Fintype.card_fin, ← sub_div, abs_div,
    abs_of_nonneg (by positivity : (0 : ℚ) ≤ n)]
  apply div_le_div_of_nonneg_right _ (by positivity)
  obtain ⟨d, rfl⟩ := Nat.exists_eq_add_of_le hJ
  rw [Nat.count_add, Nat.count_add, hc, Nat.add_sub_cancel_left]
  have e1 : Nat.count (fun k => φ (s + (J * L + k))) d ≤ d := Nat.count_le _
  have e2 : Nat.count (fun k => φ (J * L + k)) d ≤ d := Nat.count_le _
  push_cast
  have e1' : (Nat.count (fun k => φ (s + (J * L + k))) d : ℚ) ≤ d := by exact_mod_cast e1
  have e2' : (Nat.count (fun k => φ (J * L + k)) d : ℚ) ≤ d := by exact_mod_cast e2
  have e3 : (0 : ℚ) ≤ Nat.count (fun k => φ (s + (J * L + k))) d := by positivity
  have e4 : (0 : ℚ) ≤ Nat.count (fun k => φ (J * L + k)) d := by positivity
  rw [abs_le]
  constructor <;> linarith

end PJC.Oracle

namespace PJC.Stat
open Finset PJC.Prob

/-- Close experiments, as a difference of probabilities. -/
theorem StatClose.prob {ι β : Type} [Fintype ι] [DecidableEq ι] {B : ι → Nat} {f g : (ι → Nat) → β}
    {num den : Nat} (h : StatClose (Box B) f g num den) (hB : ∀ i, 0 < B i) (hd : 0 < den)
    (S : β → Prop) [DecidablePred S] :
    |prob (fun a : (i : ι) → Fin (B i) => S (f fun i => (a i).val)) -
      prob (fun a : (i : ι) → Fin (B i) => S (g fun i => (a i).val))| ≤ (num : ℚ) / den := by
  have hc := h.close hd S
  let val : ((i : ι) → Fin (B i)) → ι → Nat := fun a i => (a i).val
  have inj : Function.Injective val := by
    intro a b hab
    funext i
    exact Fin.ext (congrFun hab i)
  have card : ∀ (T : (ι → Nat) → Prop) [DecidablePred T],
      (univ.filter fun a : (i : ι) → Fin (B i) => T (val a)).card = ((Box B).filter T).card := by
    intro T _
    refine card_nbij val ?_ inj.injOn ?_
    · intro a ha
      have ha := (mem_filter.1 (mem_coe.1 ha)).2
      exact mem_coe.2 (mem_filter.2 ⟨mem_box.2 fun i => (a i).isLt, ha⟩)
    · intro a ha
      have ha := mem_filter.1 (mem_coe.1 ha)
      exact ⟨fun i => ⟨a i, mem_box.1 ha.1 i⟩, mem_coe.2 (mem_filter.2 ⟨mem_univ _, ha.2⟩), rfl⟩
  have tot : (Fintype.card ((i : ι) → Fin (B i)) : ℚ) = ((Box B).card : ℚ) := by
    have := card fun _ => True
    simp only [filter_true] at this
    rw [← this, card_univ]
  have pos : (0 : ℚ) < ((Box B).card : ℚ) := by
    have : (Box B).Nonempty := ⟨fun _ => 0, mem_box.2 hB⟩
    exact_mod_cast this.card_pos
  have e1 := card fun a => S (f a)
  have e2 := card fun a => S (g a)
  unfold Prob.prob
  rw [tot, ← sub_div, abs_div, abs_of_pos pos, div_le_iff₀ pos]
  simp only [val] at e1 e2
  rw [e1, e2]
  exact hc

end PJC.Stat
