import Verif.Model.BnObject
import Verif.Lemmas.BigNum
import Mathlib.Tactic.LinearCombination
import Mathlib.RingTheory.Coprime.Lemmas
/-
C141: `BigNum` objects are independent values.  A program that makes, copies, moves, assigns,
combines and destroys numbers computes what the same program computes on plain integers, whatever
the objects share or own in memory; every number of the library belongs to exactly one object.
-/
namespace PJC.Obj

/-! ### Specification: the same program on values -/

/-- The variables: `none` if it does not exist, `some none` after its number was moved away. -/
abbrev Values := Nat → Option (Option Int)

/-- The values of operands none of which was moved away. -/
def known : List (Option Int) → Option (List Int)
  | [] => some []
  | some v :: vs => (known vs).map (v :: ·)
  | none :: _ => none

/-- The least residue. -/
def residue (a m : Int) : Res Int := if m = 0 then .crash else .ok (a % m)

/-- The operations on integers: a division by zero, a division that does not come out even, a negative
exponent or shift end the process; a number without an inverse is an error status. -/
def meaning : Op → List Int → Res Int
  | .add, [a, b] => .ok (a + b)
  | .sub, [a, b] => .ok (a - b)
  | .mul, [a, b] => .ok (a * b)
  | .div, [a, b] => if b ≠ 0 ∧ b ∣ a then .ok (a / b) else .crash
  | .divTrunc, [a, b] => if b = 0 then .crash else .ok (a.tdiv b)
  | .exp, [a, b] => .ok (a ^ b.natAbs)
  | .mod, [a, m] => residue a m
  | .modAdd, [a, b, m] => residue (a + b) m
  | .modSub, [a, b, m] => residue (a - b) m
  | .modMul, [a, b, m] => residue (a * b) m
  | .modExp, [a, e, m] => if e < 0 then .crash else residue (a ^ e.toNat) m
  | .modSqr, [a, m] => residue (a * a) m
  | .modInverse, [a, m] =>
    match (List.range m.toNat).find? fun x : Nat => m ∣ a * (x : Int) - 1 with
    | some x => .ok x
    | none => .err .invalidArgument
  | .modNegate, [a, m] => if a = 0 then .ok 0 else if m = 0 then .crash else .ok (m - a % m)
  | .neg, [a] => .ok (-a)
  | .gcd, [a, b] => .ok (Int.gcd a b)
  | .lastBits n, [a] => .ok (a.tmod (2 ^ n))
  | .lshift n, [a] => if n < 0 then .crash else .ok (a * 2 ^ n.toNat)
  | .rshift n, [a] => if n < 0 then .crash else .ok (a.tdiv (2 ^ n.toNat))
  | _, _ => .ub

/-- The value of an operation; undefined if an operand was moved away. -/
def whole (o : Op) (vs : List (Option Int)) : Res Int :=
  match known vs with
  | some l => meaning o l
  | none => .ub

/-- The same, except that `ModNegate` of zero does not look at the modulus, and a negative exponent
ends the process before anything else is looked at. -/
def want : Op → List (Option Int) → Res Int
  | .modNegate, [some v, m] => if v = 0 then .ok 0 else whole .modNegate [some v, m]
  | .modExp, [a, some e, m] => if e < 0 then .crash else whole .modExp [a, some e, m]
  | o, vs => whole o vs

/-- The variables among the operands. -/
def valuesOf (s : Values) : List Nat → Option (List (Option Int))
  | [] => some []
  | y :: ys =>
    match s y, valuesOf s ys with
    | some v, some vs => some (v :: vs)
    | _, _ => none

/-- A new variable, or (if `old`) an existing one, gets a value. -/
def bindTo (old : Bool) (s : Values) (x : Nat) (r : Res (Option Int)) : Res Unit × Values :=
  if (s x).isSome = old then
    match r with
    | .ok v => (.ok (), set s x (some v))
    | .err c => (.err c, s)
    | .crash => (.crash, s)
    | .ub => (.ub, s)
  else (.ub, s)

/-- A result that is there. -/
def there : Res Int → Res (Option Int)
  | .ok v => .ok (some v)
  | .err c => .err c
  | .crash => .crash
  | .ub => .ub

/-- One statement on values. -/
def onValues : Stmt → Values → Res Unit × Values
  | .make x v, s => bindTo false s x (.ok (some v))
  | .copy x y, s =>
    match s y with
    | none => (.ub, s)
    | some v => bindTo false s x (.ok v)
  | .assign x y, s =>
    match s y with
    | none => (.ub, s)
    | some none => bindTo true s x .crash
    | some (some v) => bindTo true s x (.ok (some v))
  | .moveNew x y, s =>
    match s y, s x with
    | some v, none => (.ok (), set (set s y (some none)) x (some v))
    | _, _ => (.ub, s)
  | .moveAssign x y, s =>
    match s y, s x with
    | some v, some _ => (.ok (), set (set s y (some none)) x (some v))
    | _, _ => (.ub, s)
  | .op x o ys, s =>
    match valuesOf s ys with
    | none => (.ub, s)
    | some vs => bindTo false s x (there (want o vs))
  | .update x o ys, s =>
    match valuesOf s ys with
    | none => (.ub, s)
    | some vs => bindTo true s x (there (want o vs))
  | .recover x pt n, s =>
    bindTo false s x
      (match pt with
      | none => .err .invalidArgument
      | some (vx, _) => .ok (some (vx.tdiv (2 ^ n))))
  | .drop x, s =>
    match s x with
    | none => (.ub, s)
    | some _ => (.ok (), set s x none)

/-- A program on values. -/
def runValues : List Stmt → Values → List (Res Unit) × Values
  | [], s => ([], s)
  | c :: cs, s =>
    match onValues c s with
    | (.ok _, s) => let (rs, t) := runValues cs s; (.ok () :: rs, t)
    | (.err e, s) => let (rs, t) := runValues cs s; (.err e :: rs, t)
    | (.crash, s) => ([.crash], s)
    | (.ub, s) => ([.ub], s)

/-- The values in memory. -/
def State.values (s : State) : Values := fun x => (s.vars x).map fun p => p.bind s.mem.cell

/-- There is always memory. -/
def Enough (ok : Nat → Bool) : Prop := ∀ t, ok t = true

/-- The program did not end. -/
def goesOn : Res Unit → Prop
  | .ok _ => True
  | .err _ => True
  | .crash => False
  | .ub => False

/-- Every number of the library belongs to an object. -/
def State.Owned (s : State) : Prop := ∀ a, s.mem.cell a ≠ none → ∃ x, s.vars x = some (some a)

/-- What holds of every reachable state: pointers are to numbers that are there, and no two objects
have the same. -/
structure State.Sound (s : State) : Prop where
  fresh : ∀ a, s.mem.next ≤ a → s.mem.cell a = none
  live : ∀ x a, s.vars x = some (some a) → s.mem.cell a ≠ none
  alone : ∀ x y a, s.vars x = some (some a) → s.vars y = some (some a) → x = y

/-! ### The operations -/

/-- The model's values are the operations on integers. -/
theorem value_eq (o : Op) (l : List Int) : o.value l = meaning o l := by
  unfold Op.value
  split <;> simp only [meaning, residue, BN.add, BN.sub, BN.mul, BN.exp, BN.mod, BN.modAdd, BN.modSub,
    BN.modMul, BN.modSqr, BN.neg, BN.gcd, BN.divAndTruncate, BN.lshift, BN.rshift, BN.modExp]
  · next a b =>
    unfold BN.div
    by_cases hb : b = 0
    · simp [hb]
    · by_cases hd : b ∣ a
      · have h0 : a.tmod b = 0 := Int.tmod_eq_zero_of_dvd hd
        simp [hb, hd, h0, Int.tdiv_eq_ediv_of_dvd hd]
      · have h0 : a.tmod b ≠ 0 := fun h => hd (Int.dvd_of_tmod_eq_zero h)
        simp [hb, hd, h0]
  · next a m =>
    cases hf : (List.range m.toNat).find? fun x : Nat => decide (m ∣ a * (x : Int) - 1) with
    | some x =>
      have hx := List.find?_some hf
      have hr := List.mem_of_find?_eq_some hf
      simp only [decide_eq_true_eq] at hx
      rw [List.mem_range] at hr
      have hm : 0 < m := by omega
      have hg : Int.gcd a m = 1 := by
        obtain ⟨k, hk⟩ := hx
        rw [← Int.isCoprime_iff_gcd_eq_one]
        exact ⟨x, -k, by linear_combination hk⟩
      obtain ⟨h1, h2, h3⟩ := BN.inv_spec hm hg
      rw [BN.modInverse_ok hm hg]
      have hd : m ∣ a * ((x : Int) - BN.inv a m) := by
        have := (Int.modEq_iff_dvd.1 h1)
        have := Int.dvd_add hx this
        rwa [show a * (x : Int) - 1 + (1 - a * BN.inv a m) = a * ((x : Int) - BN.inv a m) by ring] at this
      have hc : IsCoprime m a := by
        rw [Int.isCoprime_iff_gcd_eq_one, Int.gcd_comm]; exact hg
      have hd' := hc.dvd_of_dvd_mul_left hd
      have : (x : Int) - BN.inv a m = 0 :=
        Int.eq_zero_of_abs_lt_dvd hd' (by rw [abs_lt]; omega)
      simp only
      rw [show BN.inv a m = x by omega]
    | none =>
      have hn : ¬ (0 < m ∧ Int.gcd a m = 1) := by
        rintro ⟨hm, hg⟩
        obtain ⟨h1, h2, h3⟩ := BN.inv_spec hm hg
        have := List.find?_eq_none.1 hf (BN.inv a m).toNat (by rw [List.mem_range]; omega)
        apply this
        rw [decide_eq_true_eq, Int.toNat_of_nonneg h2]
        exact Int.modEq_iff_dvd.1 h1.symm
      simp only [BN.modInverse, hn, if_false]
  · next a m =>
    unfold BN.modNegate
    by_cases ha : a = 0
    · simp [ha]
    · by_cases hm : m = 0
      · simp [ha, hm, BN.mod]
      · simp [ha, hm, BN.mod]
  · next n a =>
    unfold BN.getLastNBits
    congr 1
    have key : ∀ k : Nat, ((k : Int)).tmod (2 ^ n) = ((k % 2 ^ n : Nat) : Int) := by
      intro k
      rw [show ((2 : Int) ^ n) = ((2 ^ n : Nat) : Int) by push_cast; rfl, Int.ofNat_tmod]
    obtain ⟨k, rfl | rfl⟩ := Int.eq_nat_or_neg a
    · rw [key]
      rcases Nat.eq_zero_or_pos k with rfl | hk
      · simp
      · rw [Int.sign_eq_one_of_pos (by omega)]; simp
    · rw [Int.neg_tmod, key]
      rcases Nat.eq_zero_or_pos k with rfl | hk
      · simp
      · rw [Int.sign_eq_neg_one_of_neg (by omega)]; simp

theorem whole_eq (o : Op) (vs : List (Option Int)) : whole o vs =
    match known vs with
    | some l => o.value l
    | none => .ub := by
  unfold whole
  cases known vs with
  | none => rfl
  | some l => simp only [value_eq]

def Mem.Fresh (m : Mem) : Prop := ∀ a, m.next ≤ a → m.cell a = none

def Mem.Valid (m : Mem) (ps : List (Option Nat)) : Prop := ∀ p ∈ ps, ∀ a, p = some a → m.cell a ≠ none

theorem set_same {α : Type} (f : Nat → α) (a : Nat) (v : α) : set f a v a = v := by simp [set]

theorem set_other {α : Type} (f : Nat → α) {a b : Nat} (v : α) (h : b ≠ a) : set f a v b = f b := by
  simp [set, h]

theorem set_set {α : Type} (f : Nat → α) (a : Nat) (v w : α) : set (set f a v) a w = set f a w := by
  funext b; unfold set; split <;> rfl

theorem set_self {α : Type} (f : Nat → α) (a : Nat) {v : α} (h : f a = v) : set f a v = f := by
  funext b; unfold set; split
  · next e => rw [e, h]
  · rfl

theorem set_comm {α : Type} (f : Nat → α) {a b : Nat} (v w : α) (h : a ≠ b) :
    set (set f a v) b w = set (set f b w) a v := by
  funext c; unfold set; split
  · next e => subst e; simp [Ne.symm h]
  · rfl

theorem bind_def {α β : Type} (x : H α) (f : α → H β) (m : Mem) : (x >>= f) m =
    match x m with
    | (.ok a, m) => f a m
    | (.err c, m) => (.err c, m)
    | (.crash, m) => (.crash, m)
    | (.ub, m) => (.ub, m) := rfl

theorem pure_def {α : Type} (a : α) (m : Mem) : (pure a : H α) m = (.ok a, m) := rfl

theorem readAll_spec : ∀ (ps : List (Option Nat)) (m : Mem), readAll ps m =
    match known (ps.map fun p => p.bind m.cell) with
    | some l => (.ok l, m)
    | none => (.ub, m)
  | [], m => rfl
  | p :: ps, m => by
    have ih := readAll_spec ps m
    simp only [readAll, bind_def, read, List.map_cons]
    cases p with
    | none => rfl
    | some a =>
      cases h : m.cell a with
      | none => simp only [Option.bind_some, h, known]
      | some v =>
        simp only [Option.bind_some, h, known, ih]
        cases known (ps.map fun p => p.bind m.cell) <;> rfl

/-- Pointers to numbers that are there do not see a new number. -/
theorem valid_map {m : Mem} {ps : List (Option Nat)} (hv : m.Valid ps) (a : Nat) (ha : m.cell a = none)
    (v : Option Int) :
    (ps.map fun p => p.bind (set m.cell a v)) = ps.map fun p => p.bind m.cell := by
  refine List.map_congr_left fun p hp => ?_
  cases p with
  | none => rfl
  | some b =>
    have hb : b ≠ a := fun e => hv _ hp b rfl (e ▸ ha)
    simp [set_other _ _ hb]

theorem bnNew_eq (ok : Nat → Bool) (m : Mem) : bnNew ok m =
    if ok m.tick then (.ok (some m.next), ⟨set m.cell m.next (some 0), m.next + 1, m.tick + 1⟩)
    else (.crash, { m with tick := m.tick + 1 }) := by
  unfold bnNew
  simp only [bind_def, alloc]
  by_cases hk : ok m.tick = true
  · simp only [hk, if_true, pure_def]
  · simp only [hk, Bool.false_eq_true, if_false, stop]

/-- What `fresh` does. -/
theorem fresh_eq (ok : Nat → Bool) (o : Op) (ps : List (Option Nat)) (m : Mem) (hf : m.Fresh)
    (hv : m.Valid ps) : fresh ok o ps m =
    if ok m.tick then
      match whole o (ps.map fun p => p.bind m.cell) with
      | .ok v => (.ok (some m.next), ⟨set m.cell m.next (some v), m.next + 1, m.tick + 1⟩)
      | .err c => (.err c, ⟨m.cell, m.next + 1, m.tick + 1⟩)
      | .crash => (.crash, ⟨set m.cell m.next (some 0), m.next + 1, m.tick + 1⟩)
      | .ub => (.ub, ⟨set m.cell m.next (some 0), m.next + 1, m.tick + 1⟩)
    else (.crash, { m with tick := m.tick + 1 }) := by
  have hn : m.cell m.next = none := hf _ le_rfl
  unfold fresh
  simp only [bind_def, bnNew_eq]
  by_cases hk : ok m.tick = true
  · simp only [hk, if_true, readAll_spec, valid_map hv m.next hn, whole_eq]
    cases known (ps.map fun p => p.bind m.cell) with
    | none => rfl
    | some l =>
      simp only
      cases o.value l with
      | ok v => simp only [bind_def, write, set_same, set_set, pure_def]
      | err c => simp only [bind_def, free, set_same, set_set, set_self _ _ hn, stop]
      | crash => rfl
      | ub => rfl
  · simp only [hk, Bool.false_eq_true, if_false]

/-- What a piece of code that returns a number does: the result is null or a new number; nothing else
is changed; with enough memory the result is the one wanted.  `clean`: no number is left behind. -/
def Made (ok : Nat → Bool) (m : Mem) (clean : Prop) (w : Res (Option Int)) :
    Res (Option Nat) × Mem → Prop
  | (.ok none, m') => m'.Fresh ∧ m'.cell = m.cell ∧ (Enough ok → w = .ok none)
  | (.ok (some r), m') => m'.Fresh ∧ m.cell r = none ∧
      ∃ v, m'.cell = set m.cell r (some v) ∧ w = .ok (some v)
  | (.err c, m') => m'.Fresh ∧ (∀ a v, m.cell a = some v → m'.cell a = some v) ∧
      (Enough ok → w = .err c) ∧ (clean → m'.cell = m.cell)
  | (.crash, _) => Enough ok → w = .crash
  | (.ub, _) => Enough ok → w = .ub

theorem fresh_set {m : Mem} (hf : m.Fresh) (v : Option Int) (t : Nat) :
    (Mem.mk (set m.cell m.next v) (m.next + 1) t).Fresh := by
  intro a ha
  simp only at ha ⊢
  rw [set_other _ _ (by omega)]
  exact hf a (by omega)

theorem fresh_next {m : Mem} (hf : m.Fresh) (k t : Nat) : (Mem.mk m.cell (m.next + k) t).Fresh :=
  fun a ha => hf a (by simp only at ha; omega)

theorem fresh_made (ok : Nat → Bool) (o : Op) (ps : List (Option Nat)) (m : Mem) (hf : m.Fresh)
    (hv : m.Valid ps) (clean : Prop) :
    Made ok m clean (there (whole o (ps.map fun p => p.bind m.cell))) (fresh ok o ps m) := by
  rw [fresh_eq ok o ps m hf hv]
  by_cases hk : ok m.tick = true
  · simp only [hk, if_true]
    cases whole o (ps.map fun p => p.bind m.cell) with
    | ok v => exact ⟨fresh_set hf _ _, hf _ le_rfl, v, rfl, rfl⟩
    | err c => exact ⟨fresh_next hf 1 _, fun _ _ h => h, fun _ => rfl, fun _ => rfl⟩
    | crash => exact fun _ => rfl
    | ub => exact fun _ => rfl
  · simp only [hk, Bool.false_eq_true, if_false]
    exact fun h => absurd (h _) hk

theorem div_not_err {o : Op} (ho : o = .div ∨ o = .divTrunc) (l : List Int) (c : Code) :
    o.value l ≠ .err c := by
  rcases ho with rfl | rfl <;> unfold Op.value <;> split <;>
    simp_all [BN.div, BN.divAndTruncate] <;> split_ifs <;> simp

theorem divide_made (ok : Nat → Bool) (o : Op) (ho : o = .div ∨ o = .divTrunc)
    (ps : List (Option Nat)) (m : Mem) (hf : m.Fresh) (hv : m.Valid ps) (clean : Prop) :
    Made ok m clean (there (whole o (ps.map fun p => p.bind m.cell))) (divide ok o ps m) := by
  have hn : m.cell m.next = none := hf _ le_rfl
  have hn' : m.cell (m.next + 1) = none := hf _ (by omega)
  have h1 : set m.cell m.next (some (0 : Int)) (m.next + 1) = none := by
    rw [set_other _ _ (by omega), hn']
  have hv1 : (Mem.mk (set m.cell m.next (some 0)) (m.next + 1) (m.tick + 1)).Valid ps := by
    intro p hp a ha
    have := hv p hp a ha
    by_cases e : a = m.next
    · exact absurd (e ▸ hn) this
    · simpa only [set_other _ _ e] using this
  have hmap : (ps.map fun p => p.bind (set (set m.cell m.next (some 0)) (m.next + 1) (some 0))) =
      ps.map fun p => p.bind m.cell := by
    have := valid_map hv1 (m.next + 1) h1 (some 0)
    simp only at this
    rw [this, valid_map hv m.next hn]
  unfold divide
  simp only [bind_def, bnNew_eq]
  by_cases hk : ok m.tick = true
  swap
  · simp only [hk, Bool.false_eq_true, if_false]
    exact fun h => absurd (h _) hk
  by_cases hk' : ok (m.tick + 1) = true
  swap
  · simp only [hk, if_true, hk', Bool.false_eq_true, if_false]
    exact fun h => absurd (h _) hk'
  simp only [hk, if_true, hk', readAll_spec, hmap, whole_eq]
  cases known (ps.map fun p => p.bind m.cell) with
  | none => exact fun _ => rfl
  | some l =>
    simp only
    cases hval : o.value l with
    | ok v =>
      have e1 : set (set m.cell m.next (some (0 : Int))) (m.next + 1) (some 0) m.next = some 0 := by
        rw [set_other _ _ (by omega), set_same]
      have e2 : set (set (set m.cell m.next (some (0 : Int))) (m.next + 1) (some 0)) m.next (some v)
          (m.next + 1) = some 0 := by
        rw [set_other _ _ (by omega), set_same]
      have e3 : set (set (set (set m.cell m.next (some (0 : Int))) (m.next + 1) (some 0)) m.next
          (some v)) (m.next + 1) none = set m.cell m.next (some v) := by
        rw [set_comm _ _ _ (show m.next + 1 ≠ m.next by omega), set_set, set_set,
          set_self]
        rw [set_other _ _ (by omega), hn']
      simp only [bind_def, write, e1, free, e2, pure_def, e3]
      refine ⟨?_, hn, v, rfl, rfl⟩
      intro a ha
      simp only at ha ⊢
      rw [set_other _ _ (by omega)]
      exact hf a (by omega)
    | err c => exact absurd hval (div_not_err ho l c)
    | crash => exact fun _ => rfl
    | ub => exact fun _ => rfl

theorem dup_made (ok : Nat → Bool) (p : Option Nat) (m : Mem) (hf : m.Fresh) (hv : m.Valid [p])
    (clean : Prop) : Made ok m clean (.ok (p.bind m.cell)) (bnDup ok p m) := by
  cases p with
  | none => exact ⟨hf, rfl, fun _ => rfl⟩
  | some a =>
    obtain ⟨v, h⟩ := Option.ne_none_iff_exists'.1 (hv (some a) (by simp) a rfl)
    simp only [bnDup, bind_def, read, h, alloc, Option.bind_some]
    by_cases hk : ok m.tick = true
    · simp only [hk, if_true]
      exact ⟨fresh_set hf _ _, hf _ le_rfl, v, rfl, rfl⟩
    · simp only [hk, Bool.false_eq_true, if_false]
      exact ⟨hf, rfl, fun h => absurd (h _) hk⟩

theorem changed_made (ok : Nat → Bool) (f : Int → Int) (p : Option Nat) (m : Mem) (hf : m.Fresh)
    (hv : m.Valid [p]) (clean : Prop) :
    Made ok m clean (match p.bind m.cell with | some v => .ok (some (f v)) | none => .ub)
      (changed ok f p m) := by
  cases p with
  | none => exact fun _ => rfl
  | some a =>
    obtain ⟨v, h⟩ := Option.ne_none_iff_exists'.1 (hv (some a) (by simp) a rfl)
    simp only [changed, bnDup, bind_def, read, h, alloc, Option.bind_some]
    by_cases hk : ok m.tick = true
    · simp only [hk, if_true, set_same, write, set_set, pure_def]
      exact ⟨fresh_set hf _ _, hf _ le_rfl, f v, rfl, rfl⟩
    · simp only [hk, Bool.false_eq_true, if_false]
      exact fun h => absurd (h _) hk

theorem modNegate_made (ok : Nat → Bool) (p q : Option Nat) (m : Mem) (hf : m.Fresh)
    (hv : m.Valid [p, q]) (clean : Prop) :
    Made ok m clean (there (want .modNegate ([p, q].map fun p => p.bind m.cell)))
      (modNegate ok p q m) := by
  cases p with
  | none => exact fun _ => rfl
  | some a =>
    obtain ⟨v, h⟩ := Option.ne_none_iff_exists'.1 (hv (some a) (by simp) a rfl)
    simp only [modNegate, bind_def, read, h, List.map_cons, List.map_nil, Option.bind_some, want]
    by_cases h0 : v = 0
    · subst h0
      simp only [if_true]
      have := dup_made ok (some a) m hf (fun p hp => hv p (by simp at hp; simp [hp])) clean
      simpa only [Option.bind_some, h, there] using this
    simp only [if_neg h0, bind_def]
    have e1 := fresh_eq ok .mod [some a, q] m hf hv
    simp only [List.map_cons, List.map_nil, Option.bind_some, h] at e1
    rw [e1]
    by_cases hk : ok m.tick = true
    swap
    · simp only [hk, Bool.false_eq_true, if_false]
      exact fun h => absurd (h _) hk
    simp only [hk, if_true]
    cases hq : q.bind m.cell with
    | none => simp only [whole_eq, known, Option.map_none]; exact fun _ => rfl
    | some n =>
      obtain ⟨b, rfl, hb⟩ := Option.bind_eq_some_iff.1 hq
      simp only [whole_eq, known, Option.map_some, Op.value, BN.modNegate, BN.mod, h0, if_false]
      by_cases hz : n = 0
      · simp only [hz, if_true]
        exact fun _ => rfl
      simp only [hz, if_false]
      have hn : m.cell m.next = none := hf _ le_rfl
      have hbn : b ≠ m.next := fun e => by rw [e, hn] at hb; cases hb
      set m1 : Mem := ⟨set m.cell m.next (some (v % n)), m.next + 1, m.tick + 1⟩ with hm1
      have hf1 : m1.Fresh := fresh_set hf _ _
      have hb1 : m1.cell b = some n := by rw [hm1]; simp only [set_other _ _ hbn, hb]
      have ht1 : m1.cell m.next = some (v % n) := by rw [hm1]; simp only [set_same]
      have hv1 : m1.Valid [some b, some m.next] := by
        intro p hp c hc
        simp only [List.mem_cons, List.not_mem_nil, or_false] at hp
        subst hc
        rcases hp with hp | hp <;> cases hp
        · rw [hb1]; simp
        · rw [ht1]; simp
      have e2 := fresh_eq ok .sub [some b, some m.next] m1 hf1 hv1
      simp only [List.map_cons, List.map_nil, Option.bind_some, hb1, ht1, whole_eq, known,
        Option.map_some, Op.value, BN.sub] at e2
      rw [e2]
      by_cases hk1 : ok m1.tick = true
      swap
      · simp only [hk1, Bool.false_eq_true, if_false]
        exact fun h => absurd (h _) hk1
      have hne : m.next ≠ m1.next := by rw [hm1]; simp
      have ht2 : set m1.cell m1.next (some (n - v % n)) m.next = some (v % n) := by
        rw [set_other _ _ hne, ht1]
      have hc : set (set m1.cell m1.next (some (n - v % n))) m.next none =
          set m.cell m1.next (some (n - v % n)) := by
        rw [set_comm _ _ _ hne.symm, hm1]
        simp only [set_set]
        rw [set_self m.cell m.next hn]
      simp only [hk1, if_true, free, ht2, pure_def, hc]
      refine ⟨?_, ?_, n - v % n, rfl, rfl⟩
      · intro c hcc
        simp only at hcc ⊢
        have hmn : m1.next = m.next + 1 := rfl
        rw [set_other _ _ (by omega)]
        exact hf c (by omega)
      · rw [hm1]; exact hf _ (by simp)

theorem modExp_made (ok : Nat → Bool) (a e q : Option Nat) (m : Mem) (hf : m.Fresh)
    (hv : m.Valid [a, e, q]) (clean : Prop) :
    Made ok m clean (there (want .modExp ([a, e, q].map fun p => p.bind m.cell)))
      (modExp ok a e q m) := by
  cases e with
  | none =>
    simp only [modExp, bind_def, read, List.map_cons, List.map_nil, Option.bind_none, want, whole_eq]
    cases a.bind m.cell <;> exact fun _ => rfl
  | some b =>
    obtain ⟨v, h⟩ := Option.ne_none_iff_exists'.1 (hv (some b) (by simp) b rfl)
    have hm := fresh_made ok .modExp [a, some b, q] m hf hv clean
    simp only [modExp, bind_def, read, h, List.map_cons, List.map_nil, Option.bind_some, want] at hm ⊢
    by_cases h0 : v < 0
    · simp only [h0, if_true, stop]
      exact fun _ => rfl
    · simp only [h0, if_false]
      exact hm

/-- Every operation makes what is wanted, and leaves nothing behind. -/
theorem exec_made (ok : Nat → Bool) (o : Op) (ps : List (Option Nat)) (m : Mem) (hf : m.Fresh)
    (hv : m.Valid ps) (clean : Prop) :
    Made ok m clean (there (want o (ps.map fun p => p.bind m.cell))) (exec ok o ps m) := by
  have hw : ∀ o', (o' ≠ .modNegate ∧ o' ≠ .modExp) → ∀ vs, want o' vs = whole o' vs := by
    intro o' ho vs
    unfold want
    split <;> simp_all
  unfold exec
  split
  · next a =>
    have := changed_made ok BN.neg a m hf hv clean
    rw [hw _ (by simp)]
    simp only [List.map_cons, List.map_nil, whole_eq]
    cases h : a.bind m.cell with
    | none => rw [h] at this; exact this
    | some v => rw [h] at this; exact this
  · next n a =>
    have := changed_made ok (fun v => BN.getLastNBits v n) a m hf hv clean
    rw [hw _ (by simp)]
    simp only [List.map_cons, List.map_nil, whole_eq]
    cases h : a.bind m.cell with
    | none => rw [h] at this; exact this
    | some v => rw [h] at this; exact this
  · exact modNegate_made ok _ _ m hf hv clean
  · exact modExp_made ok _ _ _ m hf hv clean
  · rw [hw _ (by simp)]; exact divide_made ok _ (.inl rfl) ps m hf hv clean
  · rw [hw _ (by simp)]; exact divide_made ok _ (.inr rfl) ps m hf hv clean
  · next h1 h2 h3 h4 h5 h6 =>
    have : want o (ps.map fun p => p.bind m.cell) = whole o (ps.map fun p => p.bind m.cell) := by
      unfold want
      split
      · next hh =>
        obtain ⟨p, ps', rfl⟩ : ∃ p ps', ps = p :: ps' := by cases ps <;> simp_all
        obtain ⟨q, ps', rfl⟩ : ∃ p ps'', ps' = p :: ps'' := by cases ps' <;> simp_all
        simp only [List.map_cons, List.cons.injEq, List.map_eq_nil_iff] at hh
        obtain ⟨-, -, rfl⟩ := hh
        exact (h5 _ _ rfl rfl).elim
      · next hh =>
        obtain ⟨p, ps', rfl⟩ : ∃ p ps', ps = p :: ps' := by cases ps <;> simp_all
        obtain ⟨q, ps', rfl⟩ : ∃ p ps'', ps' = p :: ps'' := by cases ps' <;> simp_all
        obtain ⟨r, ps', rfl⟩ : ∃ p ps'', ps' = p :: ps'' := by cases ps' <;> simp_all
        simp only [List.map_cons, List.cons.injEq, List.map_eq_nil_iff] at hh
        obtain ⟨-, -, -, rfl⟩ := hh
        exact (h6 _ _ _ rfl rfl).elim
      · rfl
    rw [this]
    exact fresh_made ok o ps m hf hv clean

theorem rshift_not_err (v n : Int) (c : Code) : BN.rshift v n ≠ .err c := by
  unfold BN.rshift; split_ifs <;> simp

theorem recover_made (ok : Nat → Bool) (pt : Option (Int × Int)) (n : Nat) (m : Mem) (hf : m.Fresh) :
    Made ok m (pt ≠ none ∧ Enough ok)
      (match pt with | none => .err .invalidArgument | some (vx, _) => there (BN.rshift vx n))
      (recover ok pt n m) := by
  have hn : m.cell m.next = none := hf _ le_rfl
  have hn' : m.cell (m.next + 1) = none := hf _ (by omega)
  have hx : ∀ (w : Option Int) (a : Nat) (v : Int), m.cell a = some v → set m.cell m.next w a = some v := by
    intro w a v h
    rw [set_other _ _ (fun e => by rw [e, hn] at h; cases h), h]
  unfold recover coordinates
  simp only [bind_def, alloc]
  by_cases hk : ok m.tick = true
  swap
  · have hne : ¬ Enough ok := fun h => hk (h _)
    simp only [hk, Bool.false_eq_true, if_false]
    by_cases hk' : ok (m.tick + 1) = true
    · simp only [hk', if_true, Option.isNone_none, true_or, stop]
      exact ⟨fresh_set hf _ _, hx _, fun h => absurd h hne, fun h => absurd h.2 hne⟩
    · simp only [hk', Bool.false_eq_true, if_false, Option.isNone_none, true_or, if_true, stop]
      exact ⟨hf, fun _ _ h => h, fun h => absurd h hne, fun h => absurd h.2 hne⟩
  by_cases hk' : ok (m.tick + 1) = true
  swap
  · have hne : ¬ Enough ok := fun h => hk' (h _)
    simp only [hk, hk', if_true, Bool.false_eq_true, if_false, Option.isNone_none, or_true, stop]
    exact ⟨fresh_set hf _ _, hx _, fun h => absurd h hne, fun h => absurd h.2 hne⟩
  simp only [hk, hk', if_true, Option.isNone_some, Bool.false_eq_true, or_self, if_false]
  have hf2 : ∀ v w t, (Mem.mk (set (set m.cell m.next v) (m.next + 1) w) (m.next + 1 + 1) t).Fresh := by
    intro v w t a ha
    simp only at ha ⊢
    rw [set_other _ _ (by omega), set_other _ _ (by omega)]
    exact hf a (by omega)
  cases pt with
  | none =>
    simp only [stop]
    refine ⟨hf2 _ _ _, ?_, fun _ => rfl, fun h => absurd rfl h.1⟩
    intro a v h
    simp only
    rw [set_other _ _ (fun e => by rw [e, hn'] at h; cases h), hx _ a v h]
  | some q =>
    obtain ⟨vx, vy⟩ := q
    have e1 : set (set m.cell m.next (some (0 : Int))) (m.next + 1) (some 0) m.next = some 0 := by
      rw [set_other _ _ (by omega), set_same]
    have e2 : set (set (set m.cell m.next (some (0 : Int))) (m.next + 1) (some 0)) m.next (some vx)
        (m.next + 1) = some 0 := by
      rw [set_other _ _ (by omega), set_same]
    have e3 : set (set (set (set m.cell m.next (some (0 : Int))) (m.next + 1) (some 0)) m.next
        (some vx)) (m.next + 1) (some vy) = set (set m.cell m.next (some vx)) (m.next + 1) (some vy) := by
      rw [set_comm _ _ _ (show m.next + 1 ≠ m.next by omega), set_set, set_set]
    simp only [bind_def, write, e1, e2, e3, pure_def]
    set m2 : Mem := ⟨set (set m.cell m.next (some vx)) (m.next + 1) (some vy), m.next + 1 + 1,
      m.tick + 1 + 1⟩ with hm2
    have hx2 : m2.cell m.next = some vx := by
      rw [hm2]; simp only; rw [set_other _ _ (by omega), set_same]
    have hy2 : m2.cell (m.next + 1) = some vy := by rw [hm2]; simp only [set_same]
    have hfr := fresh_eq ok (.rshift n) [some m.next] m2 (hf2 _ _ _) (by
      intro p hp a ha
      simp only [List.mem_cons, List.not_mem_nil, or_false] at hp
      subst hp; cases ha
      rw [hx2]; simp)
    simp only [List.map_cons, List.map_nil, Option.bind_some, hx2, whole_eq, known, Option.map_some,
      Op.value] at hfr
    rw [hfr]
    by_cases hk2 : ok m2.tick = true
    swap
    · simp only [hk2, Bool.false_eq_true, if_false]
      exact fun h => absurd (h _) hk2
    simp only [hk2, if_true]
    cases hr : BN.rshift vx n with
    | ok v =>
      have hm2n : m2.next = m.next + 1 + 1 := rfl
      have f1 : set m2.cell m2.next (some v) m.next = some vx := by
        rw [set_other _ _ (by omega), hx2]
      have f2 : set (set m2.cell m2.next (some v)) m.next none (m.next + 1) = some vy := by
        rw [set_other _ _ (by omega), set_other _ _ (by omega), hy2]
      have f3 : set (set (set m2.cell m2.next (some v)) m.next none) (m.next + 1) none =
          set m.cell m2.next (some v) := by
        funext a
        rw [hm2]
        simp only [set]
        by_cases h1 : a = m.next + 1
        · subst h1; simp [hn']
        · by_cases h2 : a = m.next
          · subst h2; simp [hn, show ¬ m.next = m.next + 1 + 1 by omega]
          · simp [h1, h2]
      simp only [free, f1, f2, f3]
      refine ⟨?_, hf _ (by omega), v, rfl, rfl⟩
      intro a ha
      simp only at ha ⊢
      rw [set_other _ _ (by omega)]
      exact hf a (by omega)
    | err c => exact absurd hr (rshift_not_err _ _ _)
    | crash => exact fun _ => rfl
    | ub => exact fun _ => rfl

theorem make_made (ok : Nat → Bool) (v : Nat) (m : Mem) (hf : m.Fresh) (clean : Prop) :
    Made ok m clean (.ok (some (v : Int)))
      ((do let r ← bnNew ok; write r v; return r : H (Option Nat)) m) := by
  simp only [bind_def, bnNew_eq]
  by_cases hk : ok m.tick = true
  · simp only [hk, if_true, write, set_same, set_set, pure_def]
    exact ⟨fresh_set hf _ _, hf _ le_rfl, v, rfl, rfl⟩
  · simp only [hk, Bool.false_eq_true, if_false]
    exact fun h => absurd (h _) hk

theorem assign_made (ok : Nat → Bool) (p : Option Nat) (m : Mem) (hf : m.Fresh) (hv : m.Valid [p])
    (clean : Prop) :
    Made ok m clean (match p.bind m.cell with | none => .crash | some v => .ok (some v))
      ((do match ← bnDup ok p with
          | some a => return some a
          | none => stop .crash : H (Option Nat)) m) := by
  have h := dup_made ok p m hf hv clean
  simp only [bind_def]
  rcases hd : bnDup ok p m with ⟨r, m'⟩
  rw [hd] at h
  cases r with
  | ok r =>
    cases r with
    | none =>
      obtain ⟨-, -, h⟩ := h
      simp only [stop]
      intro he
      have := h he
      simp only [Res.ok.injEq] at this
      rw [this]
    | some a =>
      simp only [pure_def]
      obtain ⟨h1, h2, v, h3, h4⟩ := h
      simp only [Res.ok.injEq] at h4
      rw [h4]
      exact ⟨h1, h2, v, h3, rfl⟩
  | err c => exact ⟨h.1, h.2.1, fun he => (nomatch h.2.2.1 he), h.2.2.2⟩
  | crash => exact fun he => (nomatch h he)
  | ub => exact fun he => (nomatch h he)

/-! ### Statements -/

/-- A statement does what it does to the values, keeps the other objects, and leaves no number
without owner. -/
def Steps (ok : Nat → Bool) (s : State) (x y : Nat) (clean : Prop) (w : Res Unit × Values)
    (out : Res Unit × State) : Prop :=
  (Enough ok → out.1 = w.1) ∧
  (goesOn out.1 → out.2.Sound ∧ (Enough ok → out.2.values = w.2) ∧
    (∀ z, z ≠ x → z ≠ y → out.2.values z = s.values z) ∧
    (clean → s.Owned → out.2.Owned))

theorem values_of_mem {s : State} (hs : s.Sound) {m : Mem} 
    (hm : ∀ a v, s.mem.cell a = some v → m.cell a = some v) :
    (State.mk m s.vars).values = s.values := by
  funext z
  simp only [State.values]
  cases hz : s.vars z with
  | none => rfl
  | some p =>
    cases p with
    | none => rfl
    | some a =>
      obtain ⟨v, hv⟩ := Option.ne_none_iff_exists'.1 (hs.live z a hz)
      simp [hv, hm a v hv]

theorem sound_of_mem {s : State} (hs : s.Sound) {m : Mem} (hf : m.Fresh)
    (hm : ∀ a v, s.mem.cell a = some v → m.cell a = some v) : (State.mk m s.vars).Sound := by
  refine ⟨hf, fun z a hz => ?_, hs.alone⟩
  obtain ⟨v, hv⟩ := Option.ne_none_iff_exists'.1 (hs.live z a hz)
  simp only
  rw [hm a v hv]; simp

/-- A number is freed, if there is one. -/
def freed (c : Nat → Option Int) : Option Nat → Nat → Option Int
  | none => c
  | some a => set c a none

/-- A variable gets a new number or null, and its old number is freed. -/
theorem rebind {s : State} (hs : s.Sound) (x : Nat) (old p : Option Nat)
    (hx : s.vars x = some old ∨ (s.vars x = none ∧ old = none)) (m : Mem) (c : Nat → Option Int)
    (hf : ∀ a, m.next ≤ a → c a = none)
    (hp : (p = none ∧ c = s.mem.cell) ∨
      ∃ r v, p = some r ∧ s.mem.cell r = none ∧ c = set s.mem.cell r (some v))
    (hm : m.cell = freed c old) :
    (State.mk m (set s.vars x (some p))).Sound ∧
    (State.mk m (set s.vars x (some p))).values = set s.values x (some (p.bind c)) ∧
    (s.Owned → (State.mk m (set s.vars x (some p))).Owned) := by
  -- numbers of other variables are kept
  have keep : ∀ z b, z ≠ x → s.vars z = some (some b) → m.cell b = s.mem.cell b ∧ p ≠ some b := by
    intro z b hz hb
    have hlive := hs.live z b hb
    have hcb : c b = s.mem.cell b ∧ p ≠ some b := by
      rcases hp with ⟨rfl, rfl⟩ | ⟨r, v, rfl, hr, rfl⟩
      · exact ⟨rfl, by simp⟩
      · have : b ≠ r := fun e => hlive (e ▸ hr)
        exact ⟨set_other _ _ this, fun e => this (by simpa using e.symm)⟩
    refine ⟨?_, hcb.2⟩
    rw [hm]
    cases old with
    | none => exact hcb.1
    | some a =>
      have : b ≠ a := by
        rintro rfl
        rcases hx with hx | hx
        · exact hz (hs.alone z x b hb hx)
        · cases hx.2
      simp only [freed, set_other _ _ this, hcb.1]
  -- the new number is there
  have new : ∀ r, p = some r → m.cell r = c r ∧ c r ≠ none := by
    rintro r rfl
    rcases hp with ⟨h, -⟩ | ⟨r', v, h, hr, rfl⟩
    · cases h
    · cases h
      refine ⟨?_, by simp [set_same]⟩
      rw [hm]
      cases old with
      | none => rfl
      | some a =>
        have : r ≠ a := by
          rintro rfl
          rcases hx with hx | hx
          · exact hs.live x r hx hr
          · cases hx.2
        simp only [freed, set_other _ _ this]
  refine ⟨⟨?_, ?_, ?_⟩, ?_, ?_⟩
  · intro a ha
    simp only at ha ⊢
    rw [hm]
    cases old with
    | none => exact hf a ha
    | some b =>
      simp only [freed, set]
      split
      · rfl
      · exact hf a ha
  · intro z a hz
    simp only [set] at hz ⊢
    split at hz
    · have := new a (by simpa using hz)
      rw [this.1]; exact this.2
    · next h => rw [(keep z a h hz).1]; exact hs.live z a hz
  · intro z y a hz hy
    simp only [set] at hz hy
    split at hz <;> split at hy
    · next h1 h2 => rw [h1, h2]
    · next h1 h2 => exact absurd (by simpa using hz) (keep y a h2 hy).2
    · next h1 h2 => exact absurd (by simpa using hy) (keep z a h1 hz).2
    · exact hs.alone z y a hz hy
  · funext z
    simp only [State.values, set]
    split
    · cases p with
      | none => rfl
      | some r => simp [(new r rfl).1]
    · next h =>
      cases hz : s.vars z with
      | none => rfl
      | some q =>
        cases q with
        | none => rfl
        | some b => simp [(keep z b h hz).1]
  · intro ho a ha
    simp only at ha ⊢
    by_cases hpa : p = some a
    · exact ⟨x, by rw [set_same, hpa]⟩
    · have hca : s.mem.cell a ≠ none ∧ old ≠ some a := by
        rw [hm] at ha
        have hc : c a = s.mem.cell a := by
          rcases hp with ⟨rfl, rfl⟩ | ⟨r, v, rfl, hr, rfl⟩
          · rfl
          · exact set_other _ _ fun e => hpa (by rw [e])
        cases old with
        | none => exact ⟨by rw [← hc]; exact ha, by simp⟩
        | some b =>
          simp only [freed, set] at ha
          split at ha
          · exact absurd rfl ha
          · next h => exact ⟨by rw [← hc]; exact ha, fun e => h (by simpa using e.symm)⟩
      obtain ⟨z, hz⟩ := ho a hca.1
      have : z ≠ x := by
        rintro rfl
        rcases hx with hx | hx
        · rw [hz] at hx; exact hca.2 (by simpa using hx.symm)
        · rw [hz] at hx; cases hx.1
      exact ⟨z, by rw [set_other _ _ this, hz]⟩

theorem declare_steps (ok : Nat → Bool) (s : State) (hs : s.Sound) (x : Nat) (h : H (Option Nat))
    (clean : Prop) (w : Res (Option Int)) (hm : Made ok s.mem clean w (h s.mem)) :
    Steps ok s x x clean (bindTo false s.values x w) (declare s x h) := by
  unfold declare bindTo
  cases hx : s.vars x with
  | some q =>
    have : s.values x = some (q.bind s.mem.cell) := by simp [State.values, hx]
    simp only [this, Option.isSome_some, Bool.true_eq_false, if_false]
    exact ⟨fun _ => rfl, fun h => h.elim⟩
  | none =>
    have : s.values x = none := by simp [State.values, hx]
    simp only [this, Option.isSome_none, if_true]
    rcases hr : h s.mem with ⟨r, m⟩
    rw [hr] at hm
    cases r with
    | ok p =>
      simp only
      cases p with
      | none =>
        obtain ⟨h1, h2, h3⟩ := hm
        obtain ⟨g1, g2, g3⟩ := rebind hs x none none (.inr ⟨hx, rfl⟩) m s.mem.cell
          (fun a ha => by rw [← h2]; exact h1 a ha) (.inl ⟨rfl, rfl⟩) h2
        refine ⟨fun he => by rw [h3 he], fun _ => ⟨g1, fun he => by rw [h3 he]; exact g2, ?_, fun _ => g3⟩⟩
        intro z hz _
        rw [g2, set_other _ _ hz]
      | some r =>
        obtain ⟨h1, h2, v, h3, h4⟩ := hm
        obtain ⟨g1, g2, g3⟩ := rebind hs x none (some r) (.inr ⟨hx, rfl⟩) m m.cell h1
          (.inr ⟨r, v, rfl, h2, h3⟩) rfl
        have hb : (some r : Option Nat).bind m.cell = some v := by simp [h3, set_same]
        rw [hb] at g2
        refine ⟨fun he => by rw [h4], fun _ => ⟨g1, fun he => by rw [h4]; exact g2, ?_, fun _ => g3⟩⟩
        intro z hz _
        rw [g2, set_other _ _ hz]
    | err c =>
      obtain ⟨h1, h2, h3, h4⟩ := hm
      refine ⟨fun he => by rw [h3 he], fun _ => ⟨sound_of_mem hs h1 h2, fun he => ?_, ?_, ?_⟩⟩
      · rw [h3 he]; exact values_of_mem hs h2
      · intro z _ _; rw [values_of_mem hs h2]
      · intro hc ho a ha
        simp only at ha ⊢
        rw [h4 hc] at ha
        exact ho a ha
    | crash => exact ⟨fun he => by rw [hm he], fun h => h.elim⟩
    | ub => exact ⟨fun he => by rw [hm he], fun h => h.elim⟩

theorem takeOver_steps (ok : Nat → Bool) (s : State) (hs : s.Sound) (x : Nat) (h : H (Option Nat))
    (w : Res (Option Int)) (hm : Made ok s.mem True w (h s.mem)) :
    Steps ok s x x True (bindTo true s.values x w) (takeOver s x h) := by
  unfold takeOver bindTo
  cases hx : s.vars x with
  | none =>
    have : s.values x = none := by simp [State.values, hx]
    simp only [this, Option.isSome_none, Bool.false_eq_true, if_false]
    exact ⟨fun _ => rfl, fun h => h.elim⟩
  | some q =>
    have : s.values x = some (q.bind s.mem.cell) := by simp [State.values, hx]
    simp only [this, Option.isSome_some, if_true, bind_def]
    rcases hr : h s.mem with ⟨r, m⟩
    rw [hr] at hm
    cases r with
    | ok p =>
      simp only
      -- the old number is still there
      have hfree : ∀ c, (p = none ∧ c = s.mem.cell) ∨
          (∃ r v, p = some r ∧ s.mem.cell r = none ∧ c = set s.mem.cell r (some v)) → m.cell = c →
          free q m = (.ok (), { m with cell := freed c q }) := by
        intro c hp hc
        cases q with
        | none => simp only [free, freed, ← hc]
        | some a =>
          obtain ⟨v, hv⟩ := Option.ne_none_iff_exists'.1 (hs.live x a hx)
          have : m.cell a = some v := by
            rw [hc]
            rcases hp with ⟨-, rfl⟩ | ⟨r, v', -, hr, rfl⟩
            · exact hv
            · rw [set_other _ _ (fun e => by rw [e, hr] at hv; cases hv), hv]
          simp only [free, this, hc, freed]
      cases p with
      | none =>
        obtain ⟨h1, h2, h3⟩ := hm
        have hp : ((none : Option Nat) = none ∧ s.mem.cell = s.mem.cell) ∨ (∃ r v, (none : Option Nat) = some r ∧
          s.mem.cell r = none ∧ s.mem.cell = set s.mem.cell r (some v)) := .inl ⟨rfl, rfl⟩
        rw [hfree _ hp h2]
        simp only [pure_def]
        obtain ⟨g1, g2, g3⟩ := rebind hs x q none (.inl hx)
          { m with cell := freed s.mem.cell q } s.mem.cell
          (fun a ha => by rw [← h2]; exact h1 a ha) (.inl ⟨rfl, rfl⟩) rfl
        refine ⟨fun he => by rw [h3 he], fun _ => ⟨g1, fun he => by rw [h3 he]; exact g2, ?_, fun _ => g3⟩⟩
        intro z hz _
        rw [g2, set_other _ _ hz]
      | some r =>
        obtain ⟨h1, h2, v, h3, h4⟩ := hm
        rw [hfree _ (.inr ⟨r, v, rfl, h2, rfl⟩) h3]
        simp only [pure_def]
        obtain ⟨g1, g2, g3⟩ := rebind hs x q (some r) (.inl hx)
          { m with cell := freed (set s.mem.cell r (some v)) q } (set s.mem.cell r (some v))
          (fun a ha => by rw [← h3]; exact h1 a ha) (.inr ⟨r, v, rfl, h2, rfl⟩) rfl
        have hb : (some r : Option Nat).bind (set s.mem.cell r (some v)) = some v := by simp [set_same]
        rw [hb] at g2
        refine ⟨fun he => by rw [h4], fun _ => ⟨g1, fun he => by rw [h4]; exact g2, ?_, fun _ => g3⟩⟩
        intro z hz _
        rw [g2, set_other _ _ hz]
    | err c =>
      obtain ⟨h1, h2, h3, h4⟩ := hm
      refine ⟨fun he => by rw [h3 he], fun _ => ⟨sound_of_mem hs h1 h2, fun he => ?_, ?_, ?_⟩⟩
      · rw [h3 he]; exact values_of_mem hs h2
      · intro z _ _; rw [values_of_mem hs h2]
      · intro hc ho a ha
        simp only at ha ⊢
        rw [h4 hc] at ha
        exact ho a ha
    | crash => exact ⟨fun he => by rw [hm he], fun h => h.elim⟩
    | ub => exact ⟨fun he => by rw [hm he], fun h => h.elim⟩

theorem operands_values (s : State) : ∀ ys, valuesOf s.values ys =
    (operands s.vars ys).map fun ps => ps.map fun p => p.bind s.mem.cell
  | [] => rfl
  | y :: ys => by
    have ih := operands_values s ys
    simp only [valuesOf, operands, ih, State.values]
    cases s.vars y with
    | none => rfl
    | some p => cases operands s.vars ys <;> rfl

theorem operands_valid {s : State} (hs : s.Sound) : ∀ ys ps, operands s.vars ys = some ps →
    s.mem.Valid ps
  | [], ps, h => by cases h; intro p hp; simp at hp
  | y :: ys, ps, h => by
    simp only [operands] at h
    cases hy : s.vars y with
    | none => simp [hy] at h
    | some p =>
      cases ho : operands s.vars ys with
      | none => simp [hy, ho] at h
      | some qs =>
        simp only [hy, ho, Option.some.injEq] at h
        subst h
        intro q hq a ha
        rcases List.mem_cons.1 hq with rfl | hq
        · exact hs.live y a (by rw [hy, ha])
        · exact operands_valid hs ys qs ho q hq a ha

theorem valid_one {s : State} (hs : s.Sound) {y : Nat} {q : Option Nat} (hy : s.vars y = some q) :
    s.mem.Valid [q] := by
  intro p hp a ha
  simp only [List.mem_cons, List.not_mem_nil, or_false] at hp
  exact hs.live y a (by rw [hy, ← hp, ha])

/-- The variables a statement may change. -/
def Stmt.changes : Stmt → List Nat
  | .make x _ => [x]
  | .copy x _ => [x]
  | .assign x _ => [x]
  | .moveNew x y => [x, y]
  | .moveAssign x y => [x, y]
  | .op x _ _ => [x]
  | .update x _ _ => [x]
  | .recover x _ _ => [x]
  | .drop x => [x]

/-- Not the coordinates of the point at infinity, nor with too little memory. -/
def Stmt.clean (ok : Nat → Bool) : Stmt → Prop
  | .recover _ pt _ => pt ≠ none ∧ Enough ok
  | _ => True

/-- What holds of a statement. -/
def Right (ok : Nat → Bool) (s : State) (c : Stmt) (out : Res Unit × State) : Prop :=
  (Enough ok → out.1 = (onValues c s.values).1) ∧
  (goesOn out.1 → out.2.Sound ∧ (Enough ok → out.2.values = (onValues c s.values).2) ∧
    (∀ z, z ∉ c.changes → out.2.values z = s.values z) ∧
    (c.clean ok → s.Owned → out.2.Owned))

theorem step_right (ok : Nat → Bool) (s : State) (hs : s.Sound) (c : Stmt) :
    Right ok s c (step ok c s) := by
  have one : ∀ (x : Nat) (w out) (clean : Prop), Steps ok s x x clean w out → c.changes = [x] →
      onValues c s.values = w → (c.clean ok → clean) → Right ok s c out := by
    intro x w out clean h hc hw hcl
    refine ⟨fun he => by rw [hw]; exact h.1 he, fun hg => ?_⟩
    obtain ⟨h1, h2, h3, h4⟩ := h.2 hg
    refine ⟨h1, by rw [hw]; exact h2, fun z hz => ?_, fun h => h4 (hcl h)⟩
    rw [hc] at hz
    have : z ≠ x := by simpa using hz
    exact h3 z this this
  have bad : ∀ out : Res Unit × State, out.1 = .ub → (onValues c s.values).1 = .ub → Right ok s c out := by
    intro out h1 h2
    exact ⟨fun _ => by rw [h1, h2], fun h => by rw [h1] at h; exact h.elim⟩
  have val : ∀ y, s.values y = (s.vars y).map fun p => p.bind s.mem.cell := fun _ => rfl
  cases c with
  | make x v =>
    exact one x _ _ _ (declare_steps ok s hs x _ True _ (make_made ok v s.mem hs.fresh True)) rfl rfl
      fun _ => trivial
  | copy x y =>
    simp only [step]
    cases hy : s.vars y with
    | none => exact bad _ rfl (by simp [onValues, val, hy])
    | some q =>
      exact one x _ _ _ (declare_steps ok s hs x _ True _
        (dup_made ok q s.mem hs.fresh (valid_one hs hy) True)) rfl (by simp [onValues, val, hy])
        fun _ => trivial
  | assign x y =>
    simp only [step]
    cases hy : s.vars y with
    | none => exact bad _ rfl (by simp [onValues, val, hy])
    | some q =>
      refine one x _ _ _ (takeOver_steps ok s hs x _ _
        (assign_made ok q s.mem hs.fresh (valid_one hs hy) True)) rfl ?_ fun _ => trivial
      simp only [onValues, val, hy, Option.map_some]
      cases q.bind s.mem.cell <;> rfl
  | moveNew x y =>
    simp only [step]
    cases hy : s.vars y with
    | none => exact bad _ rfl (by simp [onValues, val, hy])
    | some q =>
      cases hx : s.vars x with
      | some p => exact bad _ rfl (by simp [onValues, val, hy, hx])
      | none =>
        have hxy : x ≠ y := fun e => by rw [e, hy] at hx; cases hx
        refine ⟨fun _ => by simp [onValues, val, hy, hx], fun _ => ⟨⟨hs.fresh, ?_, ?_⟩, fun _ => ?_, ?_, fun _ ho a ha => ?_⟩⟩
        · intro z a hz
          simp only [set] at hz ⊢
          split_ifs at hz with h1 h2
          · exact hs.live y a (by rw [hy]; exact hz)
          · cases hz
          · exact hs.live z a hz
        · have back : ∀ z a, set (set s.vars y (some none)) x (some q) z = some (some a) →
              z ≠ y ∧ s.vars (if z = x then y else z) = some (some a) := by
            intro z a hz
            by_cases h1 : z = x
            · subst h1; rw [set_same] at hz
              exact ⟨hxy, by rw [if_pos rfl, hy]; exact hz⟩
            · rw [set_other _ _ h1] at hz
              by_cases h2 : z = y
              · subst h2; rw [set_same] at hz; cases hz
              · rw [set_other _ _ h2] at hz
                exact ⟨h2, by rw [if_neg h1]; exact hz⟩
          intro z z' a hz hz'
          obtain ⟨b1, b2⟩ := back z a hz
          obtain ⟨c1, c2⟩ := back z' a hz'
          have := hs.alone _ _ a b2 c2
          split_ifs at this with k1 k2 k3
          · rw [k1, k2]
          · exact absurd this.symm c1
          · exact absurd this b1
          · exact this
        · simp only [onValues, val, hy, hx, Option.map_some, Option.map_none]
          funext z
          simp only [State.values, set]
          split_ifs <;> rfl
        · intro z hz
          simp only [Stmt.changes, List.mem_cons, List.not_mem_nil, or_false, not_or] at hz
          simp only [State.values, set_other _ _ hz.1, set_other _ _ hz.2]
        · obtain ⟨z, hz⟩ := ho a ha
          by_cases h : z = y
          · subst h
            exact ⟨x, by simp only [set_same]; rw [← hy, hz]⟩
          · have : z ≠ x := fun e => by rw [e, hx] at hz; cases hz
            exact ⟨z, by simp only [set_other _ _ this, set_other _ _ h, hz]⟩
  | moveAssign x y =>
    simp only [step]
    cases hx : s.vars x with
    | none => exact bad _ rfl (by cases hv : s.values y <;> simp [onValues, hv, val x, hx])
    | some old =>
      cases hy : s.vars y with
      | none => exact bad _ rfl (by simp [onValues, val, hy])
      | some q =>
        by_cases hxy : x = y
        · subst hxy
          have hq : old = q := by rw [hx] at hy; simpa using hy
          subst hq
          have hset : set (set s.vars x (some none)) x (some old) = s.vars := by
            rw [set_set, set_self _ _ hx]
          have hval : set (set s.values x (some none)) x (some (old.bind s.mem.cell)) = s.values := by
            rw [set_set, set_self]
            rw [val, hx]; rfl
          simp only [if_true, free, hset]
          refine ⟨fun _ => by simp [onValues, val x, hx], fun _ => ⟨hs, fun _ => ?_, fun _ _ => rfl, fun _ h => h⟩⟩
          simp only [onValues, val x, hx, Option.map_some]
          exact hval.symm
        · simp only [hxy, if_false]
          have hfree : free old s.mem = (.ok (), { s.mem with cell := freed s.mem.cell old }) := by
            cases old with
            | none => rfl
            | some a =>
              obtain ⟨v, hv⟩ := Option.ne_none_iff_exists'.1 (hs.live x a hx)
              simp only [free, hv, freed]
          rw [hfree]
          simp only
          -- first `x` loses its number
          obtain ⟨g1, g2, g3⟩ := rebind hs x old none (.inl hx) { s.mem with cell := freed s.mem.cell old } s.mem.cell hs.fresh (.inl ⟨rfl, rfl⟩) rfl
          set m1 : Mem := { s.mem with cell := freed s.mem.cell old } with hm1
          have hy1 : set s.vars x (some none) y = some q := by rw [set_other _ _ (Ne.symm hxy), hy]
          have hvars : ∀ z, z ≠ x → z ≠ y → set (set s.vars y (some none)) x (some q) z = set s.vars x (some none) z := by
            intro z h1 h2; rw [set_other _ _ h1, set_other _ _ h2, set_other _ _ h1]
          have hyv : set (set s.vars y (some none)) x (some q) y = some none := by
            rw [set_other _ _ (Ne.symm hxy), set_same]
          have hxv : set (set s.vars y (some none)) x (some q) x = some q := set_same _ _ _
          have hvals : (State.mk m1 (set (set s.vars y (some none)) x (some q))).values =
              set (set s.values y (some none)) x (some (q.bind s.mem.cell)) := by
            funext z
            by_cases h1 : z = x
            · subst h1
              have := congrFun g2 y
              simp only [State.values, hy1, Option.map_some] at this
              rw [set_other _ _ (Ne.symm hxy)] at this
              simp only [State.values, hy, Option.map_some] at this
              simp only [State.values, hxv, Option.map_some, set_same]
              exact this
            · by_cases h2 : z = y
              · subst h2
                simp only [State.values, hyv, Option.map_some, set_other _ _ h1, set_same]
                rfl
              · have := congrFun g2 z
                simp only [State.values, hvars z h1 h2, set_other _ _ h1, set_other _ _ h2] at this ⊢
                exact this
          refine ⟨fun _ => by simp [onValues, val, hy, hx], fun _ => ⟨⟨g1.fresh, ?_, ?_⟩, fun _ => ?_, ?_, fun _ ho a ha => ?_⟩⟩
          · intro z a hz
            simp only at hz ⊢
            by_cases h1 : z = x
            · subst h1; rw [hxv] at hz
              exact g1.live y a (by simp only; rw [hy1]; exact hz)
            · by_cases h2 : z = y
              · subst h2; rw [hyv] at hz; cases hz
              · rw [hvars z h1 h2] at hz; exact g1.live z a hz
          · -- the owner in the state before
            have back : ∀ z a, set (set s.vars y (some none)) x (some q) z = some (some a) →
                z ≠ y ∧ set s.vars x (some none) (if z = x then y else z) = some (some a) := by
              intro z a hz
              by_cases h1 : z = x
              · subst h1; rw [hxv] at hz
                exact ⟨hxy, by rw [if_pos rfl, hy1]; exact hz⟩
              · by_cases h2 : z = y
                · subst h2; rw [hyv] at hz; cases hz
                · rw [hvars z h1 h2] at hz
                  exact ⟨h2, by rw [if_neg h1]; exact hz⟩
            intro z z' a hz hz'
            obtain ⟨b1, b2⟩ := back z a hz
            obtain ⟨c1, c2⟩ := back z' a hz'
            have := g1.alone _ _ a b2 c2
            split_ifs at this with k1 k2 k3
            · rw [k1, k2]
            · exact absurd this.symm c1
            · exact absurd this b1
            · exact this
          · simp only [onValues, val, hy, hx, Option.map_some]
            exact hvals
          · intro z hz
            simp only [Stmt.changes, List.mem_cons, List.not_mem_nil, or_false, not_or] at hz
            rw [hvals, set_other _ _ hz.1, set_other _ _ hz.2]
          · obtain ⟨z, hz⟩ := g3 ho a ha
            simp only at hz ⊢
            by_cases h1 : z = x
            · subst h1; rw [set_same] at hz; cases hz
            · by_cases h2 : z = y
              · subst h2; rw [hy1] at hz; exact ⟨x, by rw [hxv]; exact hz⟩
              · exact ⟨z, by rw [hvars z h1 h2]; exact hz⟩
  | op x o ys =>
    simp only [step]
    have hv := operands_values s ys
    cases ho : operands s.vars ys with
    | none => rw [ho] at hv; exact bad _ rfl (by simp [onValues, hv])
    | some ps =>
      rw [ho] at hv
      exact one x _ _ _ (declare_steps ok s hs x _ True _
        (exec_made ok o ps s.mem hs.fresh (operands_valid hs ys ps ho) True)) rfl
        (by simp only [onValues, hv, Option.map_some]) fun _ => trivial
  | update x o ys =>
    simp only [step]
    have hv := operands_values s ys
    cases ho : operands s.vars ys with
    | none => rw [ho] at hv; exact bad _ rfl (by simp [onValues, hv])
    | some ps =>
      rw [ho] at hv
      exact one x _ _ _ (takeOver_steps ok s hs x _ _
        (exec_made ok o ps s.mem hs.fresh (operands_valid hs ys ps ho) True)) rfl
        (by simp only [onValues, hv, Option.map_some]) fun _ => trivial
  | recover x pt n =>
    exact one x _ _ _ (declare_steps ok s hs x _ _ _ (recover_made ok pt n s.mem hs.fresh)) rfl rfl
      fun h => h
  | drop x =>
    simp only [step]
    cases hx : s.vars x with
    | none => exact bad _ rfl (by simp [onValues, val, hx])
    | some old =>
      have hfree : free old s.mem = (.ok (), { s.mem with cell := freed s.mem.cell old }) := by
        cases old with
        | none => rfl
        | some a =>
          obtain ⟨v, hv⟩ := Option.ne_none_iff_exists'.1 (hs.live x a hx)
          simp only [free, hv, freed]
      simp only [hfree]
      obtain ⟨g1, g2, g3⟩ := rebind hs x old none (.inl hx) { s.mem with cell := freed s.mem.cell old } s.mem.cell hs.fresh (.inl ⟨rfl, rfl⟩) rfl
      have hvars : ∀ z, z ≠ x → set s.vars x none z = set s.vars x (some none) z := by
        intro z h1; rw [set_other _ _ h1, set_other _ _ h1]
      have hvals : (State.mk { s.mem with cell := freed s.mem.cell old } (set s.vars x none)).values =
          set s.values x none := by
        funext z
        by_cases h1 : z = x
        · subst h1; simp only [State.values, set_same, Option.map_none]
        · have := congrFun g2 z
          simp only [State.values, hvars z h1, set_other _ _ h1] at this ⊢
          exact this
      have back : ∀ z a, set s.vars x none z = some (some a) → set s.vars x (some none) z = some (some a) := by
        intro z a hz
        by_cases h1 : z = x
        · subst h1; rw [set_same] at hz; cases hz
        · rw [hvars z h1] at hz; exact hz
      refine ⟨fun _ => by simp [onValues, val, hx], fun _ => ⟨⟨g1.fresh, ?_, ?_⟩, fun _ => ?_, ?_, fun _ ho a ha => ?_⟩⟩
      · intro z a hz; exact g1.live z a (back z a hz)
      · intro z z' a hz hz'; exact g1.alone z z' a (back z a hz) (back z' a hz')
      · rw [hvals]; simp [onValues, val x, hx]
      · intro z hz
        simp only [Stmt.changes, List.mem_cons, List.not_mem_nil, or_false] at hz
        rw [hvals, set_other _ _ hz]
      · obtain ⟨z, hz⟩ := g3 ho a ha
        simp only at hz ⊢
        by_cases h1 : z = x
        · subst h1; rw [set_same] at hz; cases hz
        · exact ⟨z, by rw [hvars z h1]; exact hz⟩

/-! ### Programs -/

theorem start_sound : start.Sound := ⟨fun _ _ => rfl, fun _ _ h => (nomatch h), fun _ _ _ h => (nomatch h)⟩

theorem start_owned : start.Owned := fun _ h => absurd rfl h

/-- A program does what its statements do. -/
theorem run_right (ok : Nat → Bool) : ∀ (cs : List Stmt) (s : State), s.Sound →
    (Enough ok → (run ok cs s).1 = (runValues cs s.values).1) ∧
    ((∀ r ∈ (run ok cs s).1, goesOn r) → (run ok cs s).2.Sound ∧
      (Enough ok → (run ok cs s).2.values = (runValues cs s.values).2) ∧
      ((∀ c ∈ cs, c.clean ok) → s.Owned → (run ok cs s).2.Owned))
  | [], s, hs => ⟨fun _ => rfl, fun _ => ⟨hs, fun _ => rfl, fun _ h => h⟩⟩
  | c :: cs, s, hs => by
    obtain ⟨h1, h2⟩ := step_right ok s hs c
    simp only [run, runValues]
    rcases hst : step ok c s with ⟨r, t⟩
    rcases hsp : onValues c s.values with ⟨r', t'⟩
    rw [hst, hsp] at h1 h2
    simp only at h1 h2
    cases r with
    | ok u =>
      obtain ⟨g1, g2, -, g4⟩ := h2 trivial
      obtain ⟨i1, i2⟩ := run_right ok cs t g1
      refine ⟨fun he => ?_, fun hg => ?_⟩
      · have h := h1 he
        subst h
        simp only [i1 he, g2 he]
      · obtain ⟨j1, j2, j3⟩ := i2 fun r hr => hg r (List.mem_cons_of_mem _ hr)
        refine ⟨j1, fun he => ?_, fun hc ho => j3 (fun c hc' => hc c (List.mem_cons_of_mem _ hc'))
          (g4 (hc c List.mem_cons_self) ho)⟩
        have h := h1 he
        subst h
        simp only [j2 he, g2 he]
    | err e =>
      obtain ⟨g1, g2, -, g4⟩ := h2 trivial
      obtain ⟨i1, i2⟩ := run_right ok cs t g1
      refine ⟨fun he => ?_, fun hg => ?_⟩
      · have h := h1 he
        subst h
        simp only [i1 he, g2 he]
      · obtain ⟨j1, j2, j3⟩ := i2 fun r hr => hg r (List.mem_cons_of_mem _ hr)
        refine ⟨j1, fun he => ?_, fun hc ho => j3 (fun c hc' => hc c (List.mem_cons_of_mem _ hc'))
          (g4 (hc c List.mem_cons_self) ho)⟩
        have h := h1 he
        subst h
        simp only [j2 he, g2 he]
    | crash =>
      refine ⟨fun he => ?_, fun hg => (hg .crash (by simp)).elim⟩
      have h := h1 he
      subst h
      rfl
    | ub =>
      refine ⟨fun he => ?_, fun hg => (hg .ub (by simp)).elim⟩
      have h := h1 he
      subst h
      rfl

/-- A program and one more statement. -/
theorem run_snoc (ok : Nat → Bool) (c : Stmt) : ∀ (cs : List Stmt) (s : State),
    (∀ r ∈ (run ok cs s).1, goesOn r) →
    (run ok (cs ++ [c]) s).1 = (run ok cs s).1 ++ [(step ok c (run ok cs s).2).1] ∧
    (run ok (cs ++ [c]) s).2 = (step ok c (run ok cs s).2).2
  | [], s, _ => by
    simp only [List.nil_append, run]
    rcases step ok c s with ⟨r, t⟩
    cases r <;> exact ⟨rfl, rfl⟩
  | d :: cs, s, hg => by
    simp only [List.cons_append, run] at hg ⊢
    rcases hst : step ok d s with ⟨r, t⟩
    rw [hst] at hg
    cases r with
    | ok u =>
      have ih := run_snoc ok c cs t fun r hr => hg r (List.mem_cons_of_mem _ hr)
      exact ⟨by simp only [ih.1, List.cons_append], ih.2⟩
    | err e =>
      have ih := run_snoc ok c cs t fun r hr => hg r (List.mem_cons_of_mem _ hr)
      exact ⟨by simp only [ih.1, List.cons_append], ih.2⟩
    | crash => exact (hg .crash (by simp)).elim
    | ub => exact (hg .ub (by simp)).elim

/-- A variable that is not named keeps its value. -/
theorem run_untouched (ok : Nat → Bool) (z : Nat) : ∀ (cs : List Stmt) (s : State), s.Sound →
    (∀ r ∈ (run ok cs s).1, goesOn r) → (∀ c ∈ cs, z ∉ c.changes) →
    (run ok cs s).2.values z = s.values z
  | [], _, _, _, _ => rfl
  | c :: cs, s, hs, hg, hz => by
    obtain ⟨-, h2⟩ := step_right ok s hs c
    simp only [run] at hg ⊢
    rcases hst : step ok c s with ⟨r, t⟩
    rw [hst] at h2 hg
    simp only at h2 hg
    cases r with
    | ok u =>
      obtain ⟨g1, -, g3, -⟩ := h2 trivial
      exact (run_untouched ok z cs t g1 (fun r hr => hg r (List.mem_cons_of_mem _ hr))
        fun c hc => hz c (List.mem_cons_of_mem _ hc)).trans (g3 z (hz c List.mem_cons_self))
    | err e =>
      obtain ⟨g1, -, g3, -⟩ := h2 trivial
      exact (run_untouched ok z cs t g1 (fun r hr => hg r (List.mem_cons_of_mem _ hr))
        fun c hc => hz c (List.mem_cons_of_mem _ hc)).trans (g3 z (hz c List.mem_cons_self))
    | crash => exact (hg .crash (by simp)).elim
    | ub => exact (hg .ub (by simp)).elim

/-- Numbers behave as values.  With enough memory, every statement of every program ends as on plain
integers (in particular, it is undefined only if it uses a variable that does not exist or whose
number was moved away), and the variables have the same values. -/
theorem C141_values_partial (ok : Nat → Bool) (he : Enough ok) (cs : List Stmt) :
    (run ok cs start).1 = (runValues cs fun _ => none).1 ∧
    ((∀ r ∈ (run ok cs start).1, goesOn r) →
      ∀ x, ((run ok cs start).2.vars x).map (fun p => p.bind (run ok cs start).2.mem.cell) =
        (runValues cs fun _ => none).2 x) := by
  obtain ⟨h1, h2⟩ := run_right ok cs start start_sound
  exact ⟨h1 he, fun hg x => congrFun ((h2 hg).2.1 he) x⟩

/-- No statement changes an object it does not name as its result or as the source of a move, whatever
happened before and whether or not there is memory. -/
theorem C141_independent (ok : Nat → Bool) (cs : List Stmt) (c : Stmt)
    (hg : ∀ r ∈ (run ok (cs ++ [c]) start).1, goesOn r) (hcs : ∀ r ∈ (run ok cs start).1, goesOn r)
    (z : Nat) (hz : z ∉ c.changes) :
    (run ok (cs ++ [c]) start).2.values z = (run ok cs start).2.values z := by
  obtain ⟨e1, e2⟩ := run_snoc ok c cs start hcs
  have hs := ((run_right ok cs start start_sound).2 hcs).1
  rw [e2]
  refine ((step_right ok _ hs c).2 ?_).2.2.1 z hz
  exact hg _ (by rw [e1]; simp)

/-- Two objects never have the same number, and an object's number is never one that was freed,
whether or not there is memory. -/
theorem C141_apart (ok : Nat → Bool) (cs : List Stmt)
    (hg : ∀ r ∈ (run ok cs start).1, goesOn r) :
    (∀ x y a, (run ok cs start).2.vars x = some (some a) →
      (run ok cs start).2.vars y = some (some a) → x = y) ∧
    (∀ x a, (run ok cs start).2.vars x = some (some a) → (run ok cs start).2.mem.cell a ≠ none) := by
  have hs := ((run_right ok cs start start_sound).2 hg).1
  exact ⟨hs.alone, hs.live⟩

/-- Nothing is left behind: when no variable exists any more, no number exists, except after asking
for the coordinates of the point at infinity, or of any point with too little memory. -/
theorem C141_freed_partial (ok : Nat → Bool) (cs : List Stmt)
    (hc : ∀ x pt n, Stmt.recover x pt n ∈ cs → pt ≠ none ∧ ∀ t, ok t = true)
    (hg : ∀ r ∈ (run ok cs start).1, goesOn r)
    (hnone : ∀ x, (run ok cs start).2.vars x = none) (a : Nat) :
    (run ok cs start).2.mem.cell a = none := by
  by_contra h
  obtain ⟨x, hx⟩ := ((run_right ok cs start start_sound).2 hg).2.2 (fun c hcm => by
    cases c <;> first | trivial | exact hc _ _ _ hcm) start_owned a h
  rw [hnone x] at hx
  cases hx

/-! ### What does not hold -/

/-- Memory for the first allocation only. -/
def first (t : Nat) : Bool := t == 0

/-- `a = 5; b(a); c = -b`: no variable was moved from, and yet, if there is no memory for the copy, the
copy has no number and the statement after it is undefined. -/
theorem C141_fails : (run first [.make 0 5, .copy 1 0, .op 2 .neg [1]] start).1 = [.ok (), .ok (), .ub] ∧
    (runValues [.make 0 5, .copy 1 0, .op 2 .neg [1]] fun _ => none).1 = [.ok (), .ok (), .ok ()] := by
  constructor <;> decide +kernel

/-- `-a` itself is undefined if there is no memory, where `a + a` ends the process. -/
theorem C141_neg_fails : (run first [.make 0 5, .op 1 .neg [0]] start).1 = [.ok (), .ub] ∧
    (run first [.make 0 5, .op 1 .add [0, 0]] start).1 = [.ok (), .crash] := by
  constructor <;> decide +kernel

/-- `RecoverXFromPaddedPoint` of the point at infinity returns an error status and leaves two numbers
that nothing can free. -/
theorem C141_leak_fails :
    let s := (run (fun _ => true) [.recover 0 none 8] start).2
    (run (fun _ => true) [.recover 0 none 8] start).1 = [.err .invalidArgument] ∧
    (∀ x, s.vars x = none) ∧ s.mem.cell 0 ≠ none ∧ s.mem.cell 1 ≠ none := by
  refine ⟨by decide +kernel, fun _ => rfl, by decide +kernel, by decide +kernel⟩

/-! ### The hypotheses are met -/

/-- A program with every kind of statement. -/
def sample : List Stmt :=
  [.make 0 20, .make 1 7, .copy 2 0, .update 0 .mul [0, 1], .assign 1 0, .assign 1 1,
   .op 3 .modNegate [0, 2], .op 4 .modInverse [1, 0], .op 4 .mod [1, 0], .moveNew 5 2,
   .moveAssign 0 0, .moveAssign 0 5, .op 6 .divTrunc [1, 0], .recover 7 (some (100, 3)) 2,
   .op 8 .neg [7], .op 9 (.lastBits 3) [7], .update 9 .sub [9, 8], .drop 3]

theorem C141_sample : (∀ r ∈ (run (fun _ => true) sample start).1, goesOn r) ∧
    (run (fun _ => true) sample start).1.length = 18 ∧
    (List.range 10).map (run (fun _ => true) sample start).2.values =
      [some (some 20), some (some 140), some none, none, some (some 0), some none, some (some 7),
       some (some 25), some (some (-25)), some (some 26)] := by
  have h : (run (fun _ => true) sample start).1 =
      [.ok (), .ok (), .ok (), .ok (), .ok (), .ok (), .ok (), .err .invalidArgument, .ok (), .ok (),
       .ok (), .ok (), .ok (), .ok (), .ok (), .ok (), .ok (), .ok ()] := by decide +kernel
  refine ⟨?_, by rw [h]; rfl, by decide +kernel⟩
  rw [h]
  simp [goesOn]

/-- The same program and the end of all its variables, so that `C141_freed_partial` applies. -/
def ended : List Stmt :=
  sample ++ [.drop 0, .drop 1, .drop 2, .drop 4, .drop 5, .drop 6, .drop 7, .drop 8, .drop 9]

theorem C141_ended (a : Nat) : (run (fun _ => true) ended start).2.mem.cell a = none := by
  have hg : ∀ r ∈ (run (fun _ => true) ended start).1, goesOn r := by
    have h : ((run (fun _ => true) ended start).1.all fun r =>
        match r with | .ok _ => true | .err _ => true | _ => false) = true := by decide +kernel
    intro r hr
    have := List.all_eq_true.1 h r hr
    cases r <;> simp_all [goesOn]
  refine C141_freed_partial _ _ ?_ hg ?_ a
  · intro x pt n h
    refine ⟨?_, fun _ => rfl⟩
    simp [ended, sample] at h
    simp [h]
  · intro x
    by_cases hx : x < 10
    · have h : ∀ x < 10, (run (fun _ => true) ended start).2.vars x = none := by decide +kernel
      exact h x hx
    · have hc : ∀ c ∈ ended, ∀ z ∈ c.changes, z < 10 := by decide +kernel
      have := run_untouched _ x ended start start_sound hg fun c hc' hxc => hx (hc c hc' x hxc)
      simpa [State.values, start] using this

/-- A copy is not changed through the original. -/
example : (run (fun _ => true) [.make 0 5, .copy 1 0, .update 0 .neg [0]] start).2.values 1 =
    some (some 5) := by decide +kernel

end PJC.Obj
