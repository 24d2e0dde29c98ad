import Verif.Model.Base
import Mathlib.Data.List.Basic

/-!
`Res.Sat x P`: the call returns a status, and when it returns a value the value satisfies `P`.
-/

namespace PJC.Res

/-- The call returns (no crash, nothing undefined), and a value it returns satisfies `P`. -/
def Sat {α : Type} (x : Res α) (P : α → Prop) : Prop := x.returns ∧ ∀ a, x = .ok a → P a

variable {α β : Type}

theorem Sat.returns {x : Res α} {P : α → Prop} (h : x.Sat P) : x.returns := h.1

theorem sat_ok {a : α} {P : α → Prop} (h : P a) : (Res.ok a).Sat P :=
  ⟨trivial, fun b hb => by cases hb; exact h⟩

theorem sat_pure {a : α} {P : α → Prop} (h : P a) : (pure a : Res α).Sat P := sat_ok h

theorem sat_err {c : Code} {P : α → Prop} : (Res.err c : Res α).Sat P :=
  ⟨trivial, fun b hb => by cases hb⟩

theorem sat_eq {x : Res α} {a : α} {P : α → Prop} (h : x = .ok a) (hp : P a) : x.Sat P := by
  subst h
  exact sat_ok hp

theorem Sat.bind {x : Res α} {f : α → Res β} {P : α → Prop} {Q : β → Prop} (hx : x.Sat P)
    (hf : ∀ a, P a → (f a).Sat Q) : (x >>= f).Sat Q := by
  obtain ⟨h1, h2⟩ := hx
  cases x with
  | ok a => exact hf a (h2 a rfl)
  | err c => exact sat_err
  | crash => exact absurd h1 (by simp)
  | ub => exact absurd h1 (by simp)

theorem Sat.mono {x : Res α} {P Q : α → Prop} (h : x.Sat P) (hpq : ∀ a, P a → Q a) : x.Sat Q :=
  ⟨h.1, fun a ha => hpq a (h.2 a ha)⟩

theorem sat_mapM {f : α → Res β} {P : β → Prop} : ∀ {l : List α}, (∀ a ∈ l, (f a).Sat P) →
    (l.mapM f).Sat (fun r => r.length = l.length ∧ ∀ b ∈ r, P b)
  | [], _ => by
    rw [List.mapM_nil]
    exact sat_pure (by simp)
  | a :: l, h => by
    rw [List.mapM_cons]
    refine (h a (by simp)).bind fun b hb => ?_
    refine (sat_mapM (l := l) (fun x hx => h x (by simp [hx]))).bind fun r hr => ?_
    refine sat_pure ⟨by simp [hr.1], ?_⟩
    intro x hx
    rcases List.mem_cons.1 hx with rfl | hx
    · exact hb
    · exact hr.2 x hx

theorem sat_foldlM {f : β → α → Res β} {P : β → Prop} : ∀ {l : List α} {b : β}, P b →
    (∀ b, P b → ∀ a ∈ l, (f b a).Sat P) → (l.foldlM f b).Sat P
  | [], b, hb, _ => by
    rw [List.foldlM_nil]
    exact sat_pure hb
  | a :: l, b, hb, h => by
    rw [List.foldlM_cons]
    refine (h b hb a (by simp)).bind fun b' hb' => ?_
    exact sat_foldlM hb' (fun b'' hb'' x hx => h b'' hb'' x (by simp [hx]))

end PJC.Res
