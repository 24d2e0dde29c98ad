import Verif.Props.Nist
/-
How the decoders of the three implementations of the commutative cipher relate.
-/
namespace PJC
namespace Interop
open Curve

/-- Specification: the encodings of SEC1 in full, as OpenSSL decodes them.  Beyond
`Curve.oct2point`: one zero byte for infinity, and the hybrid form (6 or 7 by the parity
of y, then both coordinates). -/
def sec1Decode (c : Curve) (bs : Bytes) : Option RawPoint :=
  match bs with
  | [] => none
  | t :: rest =>
    if t = 0 then (if rest = [] then some .inf else none)
    else if t = 6 ∨ t = 7 then
      match c.oct2point (4 :: rest) with
      | some (.aff x y) => if y.toNat % 2 = t.val - 6 then some (.aff x y) else none
      | _ => none
    else c.oct2point bs

/-- Specification: scalar multiplication on coordinates, by Mathlib's group law. -/
noncomputable def mulRaw (c : Curve) (q : Nat) [Fact q.Prime] (k : Int) (P : RawPoint) : RawPoint :=
  match c.toPoint? q P with
  | some Q => c.ofPoint (k • Q)
  | none => P

theorem mulRaw_of {c : Curve} {q : Nat} [Fact q.Prime] {P : RawPoint} {Q : (c.W q).Point}
    (h : c.toPoint? q P = some Q) (k : Int) : mulRaw c q k P = c.ofPoint (k • Q) := by
  simp only [mulRaw, h]

theorem decompress_some {c : Curve} {p : Nat} (h : c.Proper p) {x y : Int} {par : Nat}
    (hxy : c.onCurve x y = true) (hpar : y.toNat % 2 = par) : c.decompress x par = some y := by
  obtain ⟨hx0, hx1, hy0, hy1, hc⟩ := (c.onCurve_iff x y).1 hxy
  rw [h.hp] at hx1 hy1 hc
  simp only [decompress, h.hp, Int.toNat_natCast]
  have hmem : y.toNat ∈ List.range p := by simp; omega
  have hsat : (decide (y.toNat % 2 = par) && c.onCurve x (y.toNat : Int)) = true := by
    rw [Int.toNat_of_nonneg hy0, hxy]
    simp [hpar]
  cases hfind : (List.range p).find?
      (fun z => decide (z % 2 = par) && c.onCurve x (z : Int)) with
  | none => exact absurd hsat (List.find?_eq_none.1 hfind _ hmem)
  | some z =>
    have hz := List.find?_some hfind
    simp only [Bool.and_eq_true, decide_eq_true_eq] at hz
    obtain ⟨hz1, hz2⟩ := hz
    obtain ⟨-, -, hz0, hz3, hz4⟩ := (c.onCurve_iff x z).1 hz2
    rw [h.hp] at hz3 hz4
    have : (z : Int) = y := root_unique h.prime h.odd hz0 hz3 hy0 hy1 hz4 hc (by omega)
    simp [this]

theorem decompress_none {c : Curve} {x : Int} {par : Nat}
    (h : ∀ y, ¬ c.onCurve x y = true) : c.decompress x par = none := by
  simp only [decompress, Option.map_eq_none_iff, List.find?_eq_none]
  intro y _
  simp [h y]

theorem ofBytes_nonneg (bs : Bytes) : 0 ≤ BN.ofBytes bs := by
  simp only [BN.ofBytes]
  positivity

/-- BouncyCastle's decompression finds the point that the search finds. -/
theorem java_decompress {c : Curve} {q : Nat} {gx gy : Int} (hc : c.Certified q gx gy)
    {bc : Int → Option Int} (hbc : BcSqrt bc q) {x : Int} (hx0 : 0 ≤ x) (odd : Bool) :
    (∃ y, c.decompress x odd.toNat = some y ∧ c.onCurve x y = true ∧
      Java.decompressPoint c bc odd x = .ok (.aff x y)) ∨
    (c.decompress x odd.toNat = none ∧
      Java.decompressPoint c bc odd x = .throws .illegalArgument) := by
  have h := hc.proper
  have hf : Fact q.Prime := ⟨h.prime⟩
  have hodd : q % 2 = 1 := (h.prime.eq_two_or_odd).resolve_left h.odd
  by_cases hx1 : c.p ≤ x
  · right
    refine ⟨decompress_none fun y hy => ?_, by simp only [Java.decompressPoint, if_pos hx1]⟩
    have := ((c.onCurve_iff x y).1 hy).2.1
    omega
  rw [Java.decompressPoint, if_neg hx1, ySquare_mod h]
  rw [h.hp] at hx1
  set w := x * x * x + c.a * x + c.b with hw
  rcases hbc (w % q) with ⟨s, h1, h2, h3, h4⟩ | ⟨h1, h2⟩
  · left
    rw [sub_emod_mod] at h4
    have hs : c.onCurve x s = true := by
      rw [onCurve_iff, h.hp]
      exact ⟨hx0, by omega, h2, h3, h4⟩
    have hs0 : s ≠ 0 := by
      rintro rfl
      apply hc.no_root (x : ZMod q)
      have := (cast_eq_zero (p := q)).2 h4
      rw [hw] at this
      push_cast at this
      linear_combination -this
    have hneg : (-s) % (q : Int) = q - s := by
      rw [← Int.add_emod_right, Int.emod_eq_of_lt (by omega) (by omega)]; ring
    have hn : c.onCurve x (q - s) = true := by
      rw [onCurve_iff, h.hp]
      refine ⟨hx0, by omega, by omega, by omega, ?_⟩
      have : ((q : Int) - s) * (q - s) - w = (s * s - w) + q * (q - 2 * s) := by ring
      rw [this, Int.add_mul_emod_self_left, h4]
    have hb := isBitSet_zero h2
    rw [h1]
    simp only [h.hp, hneg]
    by_cases hpar : BN.isBitSet s 0 = odd
    · refine ⟨s, decompress_some h hs ?_, hs, ?_⟩
      · rw [← hpar]
        cases hbit : BN.isBitSet s 0 with
        | true => have := hb.1 hbit; simp only [Bool.toNat_true]; omega
        | false =>
          have : ¬ s % 2 = 1 := fun e => by rw [hb.2 e] at hbit; cases hbit
          simp only [Bool.toNat_false]; omega
      · simp [hpar]
    · refine ⟨q - s, decompress_some h hn ?_, hn, ?_⟩
      · cases hbit : BN.isBitSet s 0 with
        | true =>
          have := hb.1 hbit
          have ho : odd = false := by cases odd; rfl; exact absurd hbit hpar
          simp only [ho, Bool.toNat_false]; omega
        | false =>
          have : ¬ s % 2 = 1 := fun e => by rw [hb.2 e] at hbit; cases hbit
          have ho : odd = true := by cases odd; exact absurd hbit hpar; rfl
          simp only [ho, Bool.toNat_true]; omega
      · simp [hpar]
  · right
    rw [h1]
    refine ⟨decompress_none fun y hy => ?_, rfl⟩
    rw [onCurve_iff, h.hp] at hy
    exact h2 y (by rw [sub_emod_mod]; exact hy.2.2.2.2)

/-- The hybrid form: 6 or 7 and then what would follow 4. -/
def Hybrid (c : Curve) (bs : Bytes) (P : RawPoint) : Prop :=
  ∃ t rest, bs = t :: rest ∧ (t = 6 ∨ t = 7) ∧ c.oct2point (4 :: rest) = some P

theorem checkPointOnCurve_aff {c : Curve} {bc : Int → Option Int} {bs : Bytes} {x y : Int}
    (h : Java.decodePoint c bc bs = .ok (.aff x y)) (hxy : c.onCurve x y = true) :
    Java.checkPointOnCurve c bc bs = .ok (.aff x y) := by
  simp [Java.checkPointOnCurve, h, isOnCurve, hxy, isAtInfinity]

/-- What the Java decoder makes of any bytes, against the C++ one. -/
theorem java_decode {c : Curve} {q : Nat} {gx gy : Int} (hc : c.Certified q gx gy)
    {bc : Int → Option Int} (hbc : BcSqrt bc q) (bs : Bytes) :
    (∃ P, c.oct2point bs = some P ∧ Java.checkPointOnCurve c bc bs = .ok P) ∨
    (c.oct2point bs = none ∧
      ((∃ P, Hybrid c bs P ∧ Java.checkPointOnCurve c bc bs = .ok P) ∨
        Java.checkPointOnCurve c bc bs = .throws .illegalArgument ∨
        (bs = [] ∧ Java.checkPointOnCurve c bc bs = .throws .arrayIndex))) := by
  cases bs with
  | nil => exact Or.inr ⟨rfl, Or.inr (Or.inr ⟨rfl, rfl⟩)⟩
  | cons t rest =>
    by_cases h4 : t = 4
    · subst h4
      by_cases hl : rest.length = 2 * c.fieldLen
      · by_cases hon : c.onCurve (BN.ofBytes (rest.take c.fieldLen))
            (BN.ofBytes (rest.drop c.fieldLen)) = true
        · refine Or.inl ⟨.aff (BN.ofBytes (rest.take c.fieldLen))
            (BN.ofBytes (rest.drop c.fieldLen)), by simp only [oct2point, if_true, hl, hon], ?_⟩
          exact checkPointOnCurve_aff (by simp [Java.decodePoint, hl, hon]) hon
        · refine Or.inr ⟨by simp [oct2point, hl, hon], Or.inr (Or.inl ?_)⟩
          simp [Java.checkPointOnCurve, Java.decodePoint, hl, hon]
      · refine Or.inr ⟨by simp [oct2point, hl], Or.inr (Or.inl ?_)⟩
        simp [Java.checkPointOnCurve, Java.decodePoint, hl]
    by_cases h23 : t = 2 ∨ t = 3
    · have h0 : t ≠ 0 := by rcases h23 with rfl | rfl <;> decide
      have hbit : t.val - 2 = (decide (t = 3)).toNat := by rcases h23 with rfl | rfl <;> rfl
      by_cases hl : rest.length = c.fieldLen
      · rcases java_decompress hc hbc (ofBytes_nonneg rest) (decide (t = 3)) with
          ⟨y, h1, h2, h3⟩ | ⟨h1, h3⟩
        · refine Or.inl ⟨.aff (BN.ofBytes rest) y, ?_, ?_⟩
          · simp only [oct2point, if_neg h4, if_pos h23, if_pos hl, hbit, h1, Option.map_some]
          · refine checkPointOnCurve_aff ?_ h2
            simp only [Java.decodePoint, if_neg h0, if_pos h23, if_pos hl, h3]
        · refine Or.inr ⟨?_, Or.inr (Or.inl ?_)⟩
          · simp only [oct2point, if_neg h4, if_pos h23, if_pos hl, hbit, h1, Option.map_none]
          · simp only [Java.checkPointOnCurve, Java.decodePoint, if_neg h0, if_pos h23, if_pos hl,
              h3, Java.Out.throws_bind]
      · refine Or.inr ⟨by simp only [oct2point, if_neg h4, if_pos h23, if_neg hl], Or.inr (Or.inl ?_)⟩
        simp only [Java.checkPointOnCurve, Java.decodePoint, if_neg h0, if_pos h23, if_neg hl,
          Java.Out.throws_bind]
    · refine Or.inr ⟨by simp only [oct2point, if_neg h4, if_neg h23], ?_⟩
      by_cases h0 : t = 0
      · refine Or.inr (Or.inl ?_)
        by_cases hl : rest.length = 0 <;>
          simp [Java.checkPointOnCurve, Java.decodePoint, h0, hl, isOnCurve, isAtInfinity]
      by_cases h67 : t = 6 ∨ t = 7
      · have h467 : t = 4 ∨ t = 6 ∨ t = 7 := Or.inr h67
        simp only [Java.checkPointOnCurve, Java.decodePoint, if_neg h0, if_neg h23, if_pos h467]
        by_cases hl : rest.length = 2 * c.fieldLen
        · simp only [if_pos hl]
          split
          · exact Or.inr (Or.inl rfl)
          · split
            · rename_i hon
              refine Or.inl ⟨.aff (BN.ofBytes (rest.take c.fieldLen))
                (BN.ofBytes (rest.drop c.fieldLen)),
                ⟨t, rest, rfl, h67, by simp only [oct2point, if_true, hl, hon]⟩, ?_⟩
              simp [isOnCurve, hon, isAtInfinity]
            · exact Or.inr (Or.inl rfl)
        · simp only [if_neg hl]
          exact Or.inr (Or.inl rfl)
      · refine Or.inr (Or.inl ?_)
        have h467 : ¬ (t = 4 ∨ t = 6 ∨ t = 7) := fun h => h.elim h4 h67
        simp only [Java.checkPointOnCurve, Java.decodePoint, if_neg h0, if_neg h23, if_neg h467,
          Java.Out.throws_bind]

/-- What the Python decoder makes of any bytes, against the C++ one. -/
theorem py_decode {c : Curve} {L : Py.Lib}
    (hL : L.oct2point = c.oct2point ∨ L.oct2point = sec1Decode c) (bs : Bytes) :
    (∃ P, c.oct2point bs = some P ∧ Py.fromBytes L c bs = .ok P) ∨
    (c.oct2point bs = none ∧
      ((∃ P, Hybrid c bs P ∧ Py.fromBytes L c bs = .ok P) ∨
        Py.fromBytes L c bs = .raises .assertionError ∨
        (bs = [0] ∧ Py.fromBytes L c bs = .raises .valueError))) := by
  have hval : ∀ {x y}, c.onCurve x y = true → Py.checkValidity c (.aff x y) = .ok (.aff x y) := by
    intro x y h
    simp [Py.checkValidity, isOnCurve, h, isAtInfinity]
  rcases hL with hL | hL
  · cases hd : c.oct2point bs with
    | some P =>
      obtain ⟨x, y, rfl, hon⟩ := oct2point_onCurve hd
      exact Or.inl ⟨_, rfl, by simp only [Py.fromBytes, hL, hd, hval hon]⟩
    | none => exact Or.inr ⟨rfl, Or.inr (Or.inl (by simp only [Py.fromBytes, hL, hd]))⟩
  · cases bs with
    | nil => exact Or.inr ⟨rfl, Or.inr (Or.inl (by simp only [Py.fromBytes, hL, sec1Decode]))⟩
    | cons t rest =>
      by_cases h0 : t = 0
      · subst h0
        refine Or.inr ⟨by simp [oct2point], ?_⟩
        by_cases hr : rest = []
        · subst hr
          exact Or.inr (Or.inr ⟨rfl, by
            simp [Py.fromBytes, hL, sec1Decode, Py.checkValidity, isOnCurve, isAtInfinity]⟩)
        · exact Or.inr (Or.inl (by simp [Py.fromBytes, hL, sec1Decode, hr]))
      by_cases h67 : t = 6 ∨ t = 7
      · have hn : c.oct2point (t :: rest) = none := by
          rcases h67 with rfl | rfl <;> simp [oct2point]
        refine Or.inr ⟨hn, ?_⟩
        simp only [Py.fromBytes, hL, sec1Decode, if_neg h0, if_pos h67]
        cases hd : c.oct2point (4 :: rest) with
        | none => exact Or.inr (Or.inl rfl)
        | some P =>
          obtain ⟨x, y, rfl, hon⟩ := oct2point_onCurve hd
          by_cases hpar : y.toNat % 2 = t.val - 6
          · exact Or.inl ⟨_, ⟨t, rest, rfl, h67, hd⟩, by simp only [if_pos hpar, hval hon]⟩
          · exact Or.inr (Or.inl (by simp only [if_neg hpar]))
      · cases hd : c.oct2point (t :: rest) with
        | some P =>
          obtain ⟨x, y, rfl, hon⟩ := oct2point_onCurve hd
          exact Or.inl ⟨_, rfl, by
            simp only [Py.fromBytes, hL, sec1Decode, if_neg h0, if_neg h67, hd, hval hon]⟩
        | none =>
          exact Or.inr ⟨rfl, Or.inr (Or.inl (by
            simp only [Py.fromBytes, hL, sec1Decode, if_neg h0, if_neg h67, hd]))⟩

end Interop
end PJC
