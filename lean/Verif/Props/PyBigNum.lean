import Verif.Model.PyBigNum
import Verif.Lemmas.Interop
/-
C116: the Python `BigNum`s.  Which objects a call can change, what the results are, and where the
promise of `immutable` is broken.
-/
namespace PJC.Py.Bn
open PJC

/-! ### Which cells change -/

/-- The calls that write to object `r`: `Mutable`, the in-place shifts, and the other in-place
operations when `r` is mutable. -/
def Writes (h : Heap) (r : Nat) : Call → Prop
  | .mutable s => s = r
  | .inPlaceLshift s _ => s = r
  | .inPlaceRshift s _ => s = r
  | .inPlaceOperator _ s _ => s = r ∧ h.immutable r = false
  | .inPlaceMethod _ s _ => s = r ∧ h.immutable r = false
  | _ => False

theorem write_other {h : Heap} {r s : Nat} (v : Int) (hrs : s ≠ r) :
    (h.write s v).objs[r]? = h.objs[r]? := by
  simp [Heap.write, List.getElem?_modify, hrs]

theorem write_length (h : Heap) (s : Nat) (v : Int) :
    (h.write s v).objs.length = h.objs.length := by simp [Heap.write]

theorem alloc_old {h : Heap} {r : Nat} (hr : r < h.objs.length) (v : Int) :
    (h.alloc v).2.objs[r]? = h.objs[r]? := by
  simp [Heap.alloc, List.getElem?_append_left hr]

theorem alloc_length (h : Heap) (v : Int) :
    (h.alloc v).2.objs.length = h.objs.length + 1 := by simp [Heap.alloc]

/-- `h'` has all the objects of `h` with index in `S` unchanged, and perhaps more. -/
def Keeps (S : Nat → Prop) (h h' : Heap) : Prop :=
  h.objs.length ≤ h'.objs.length ∧ ∀ r, r < h.objs.length → S r → h'.objs[r]? = h.objs[r]?

theorem Keeps.refl {S} (h : Heap) : Keeps S h h := ⟨le_refl _, fun _ _ _ => rfl⟩

theorem Keeps.trans {S} {h h' h'' : Heap} (a : Keeps S h h') (b : Keeps S h' h'') : Keeps S h h'' :=
  ⟨a.1.trans b.1, fun r hr hs => (b.2 r (by have := a.1; omega) hs).trans (a.2 r hr hs)⟩

theorem Keeps.mono {S T : Nat → Prop} {h h' : Heap} (hst : ∀ r, T r → S r) (a : Keeps S h h') :
    Keeps T h h' := ⟨a.1, fun r hr ht => a.2 r hr (hst r ht)⟩

theorem keeps_alloc {S} (h : Heap) (v : Int) : Keeps S h (h.alloc v).2 :=
  ⟨by rw [alloc_length]; omega, fun _ hr _ => alloc_old hr v⟩

theorem keeps_write {S : Nat → Prop} (h : Heap) {s : Nat} (hs : ¬ S s) (v : Int) :
    Keeps S h (h.write s v) :=
  ⟨by rw [write_length], fun r _ hr => write_other v (fun e => hs (e ▸ hr))⟩

/-- Writing to a cell that the first heap does not have. -/
theorem Keeps.write_new {S} {h h' : Heap} (a : Keeps S h h') {s : Nat} (hs : h.objs.length ≤ s)
    (v : Int) : Keeps S h (h'.write s v) :=
  ⟨by rw [write_length]; exact a.1,
    fun r hr hS => (write_other v (by omega)).trans (a.2 r hr hS)⟩

theorem keeps_computeInto {S : Nat → Prop} (junk : Int) {h0 h : Heap} (a : Keeps S h0 h) {res : Nat}
    (hres : h0.objs.length ≤ res ∨ ¬ S res) (f : Fn) (args : List Val) :
    Keeps S h0 (computeInto junk h res f args).2 := by
  have hw : ∀ v, Keeps S h0 (h.write res v) := by
    intro v
    rcases hres with h1 | h1
    · exact a.write_new h1 v
    · exact a.trans (keeps_write h h1 v)
  unfold computeInto
  split
  · exact a
  · split
    · exact hw _
    · exact hw _

theorem keeps_computeResult {S} (junk : Int) (h : Heap) (f : Fn) (s : Nat) (args : List Val) :
    Keeps S h (computeResult junk h f s args).2 :=
  keeps_computeInto junk (keeps_alloc h 0) (Or.inl (le_refl _)) f _

theorem keeps_operator {S} (junk : Int) (h : Heap) (f : Fn) (s : Nat) (x : Val) :
    Keeps S h (operator junk h f s x).2 := by
  have := keeps_computeResult (S := S) junk h f s [x]
  unfold operator
  split
  · rename_i h' e
    rw [e] at this
    exact this
  · exact this

theorem keeps_inPlace {S : Nat → Prop} (junk : Int) (h : Heap) (f : Fn) {s : Nat}
    (hs : h.immutable s = false → ¬ S s) (args : List Val) :
    Keeps S h (computeResultInPlace junk h f s args).2 := by
  unfold computeResultInPlace
  split
  · exact Keeps.refl h
  · rename_i hi
    exact keeps_computeInto junk (Keeps.refl h) (Or.inr (hs (by simpa using hi))) f _

theorem keeps_inPlaceOperator {S : Nat → Prop} (junk : Int) (h : Heap) (f : Fn) {s : Nat}
    (hs : h.immutable s = false → ¬ S s) (x : Val) :
    Keeps S h (inPlaceOperator junk h f s x).2 := by
  have := keeps_inPlace junk h f hs [x]
  unfold inPlaceOperator
  split
  · rename_i h' e
    rw [e] at this
    exact this.trans (keeps_operator junk h' f s x)
  · exact this

theorem keeps_getZero {S} (h : Heap) : Keeps S h (getZero h).2 := by
  unfold getZero
  split
  · exact Keeps.refl h
  · exact keeps_alloc h 0

theorem keeps_getOne {S} (h : Heap) : Keeps S h (getOne h).2 := by
  unfold getOne
  split
  · exact Keeps.refl h
  · exact keeps_alloc h 1

theorem keeps_getTwo {S} (h : Heap) : Keeps S h (getTwo h).2 := by
  unfold getTwo
  split
  · exact Keeps.refl h
  · exact keeps_alloc h 2

theorem keeps_fromLong {S} (h : Heap) (n : Int) : Keeps S h (fromLongNumber h n).2 := by
  unfold fromLongNumber
  split
  · exact Keeps.refl h
  · exact keeps_alloc h n

theorem keeps_shift {S} (h : Heap) (f : Fn) (s : Nat) : Keeps S h (shift h f s).2 := by
  unfold shift
  split
  · exact keeps_alloc h _
  · exact Keeps.refl h

theorem keeps_inPlaceShift {S : Nat → Prop} (h : Heap) (f : Fn) {s : Nat} (hs : ¬ S s) :
    Keeps S h (inPlaceShift h f s).2 := by
  unfold inPlaceShift
  split
  · exact keeps_write h hs _
  · exact Keeps.refl h

theorem keeps_generateRand {S} (h : Heap) (s w : Nat) : Keeps S h (generateRand h s w).2 := by
  unfold generateRand
  split
  · exact Keeps.refl h
  · exact keeps_alloc h _

theorem keeps_div {S} (h : Heap) (s : Nat) (x : Val) : Keeps S h (div h s x).2 := by
  unfold div
  dsimp only
  split
  · split
    · exact keeps_alloc h 0
    · have h2 : ∀ v, Keeps S h ((h.alloc 0).2.write (h.alloc 0).1 v) :=
        fun v => (keeps_alloc h 0).write_new (le_refl _) v
      split
      · exact (h2 _).trans (keeps_getZero _)
      · exact (h2 _).trans (keeps_getZero _)
  · exact keeps_alloc h 0

theorem keeps_exec (junk : Int) (h : Heap) (c : Call) :
    Keeps (fun r => ¬ Writes h r c) h (exec junk h c).2 := by
  cases c with
  | fromLong n => exact keeps_fromLong h n
  | fromBytes bs => exact keeps_alloc h _
  | clone r => exact keeps_alloc h _
  | mutable s =>
    refine ⟨by simp [exec, mutable], fun r hr hs => ?_⟩
    simp only [Writes] at hs
    simp [exec, mutable, List.getElem?_modify, hs]
  | operator f r x => exact keeps_operator junk h f r x
  | inPlaceOperator f r x =>
    refine keeps_inPlaceOperator junk h f (fun hi => ?_) x
    simp [Writes, hi]
  | method f r args => exact keeps_computeResult junk h f r args
  | inPlaceMethod f r args =>
    refine keeps_inPlace junk h f (fun hi => ?_) args
    simp [Writes, hi]
  | lshift r n => exact keeps_shift h _ r
  | rshift r n => exact keeps_shift h _ r
  | inPlaceLshift r n => exact keeps_inPlaceShift h _ (by simp [Writes])
  | inPlaceRshift r n => exact keeps_inPlaceShift h _ (by simp [Writes])
  | div r x => exact keeps_div h r x
  | modInverse r x =>
    have := keeps_computeResult (S := fun s => ¬ Writes h s (.modInverse r x)) junk h bnModInverse r [x]
    simp only [exec, modInverse]
    split
    · rename_i h' e
      rw [e] at this
      exact this
    · exact this
  | generateRand r w => exact keeps_generateRand h r w
  | generateRandWithStart r x w =>
    have h1 := keeps_operator (S := fun s => ¬ Writes h s (.generateRandWithStart r x w))
      junk h bnSub r x
    simp only [exec, generateRandWithStart]
    split
    · rename_i d h1' e
      rw [e] at h1
      have h2 := keeps_generateRand (S := fun s => ¬ Writes h s (.generateRandWithStart r x w)) h1' d w
      split
      · rename_i y h2' e2
        rw [e2] at h2
        exact (h1.trans h2).trans (keeps_operator junk h2' bnAdd y x)
      · exact h1.trans h2
    · exact h1
  | modNegate r m =>
    have h1 := keeps_operator (S := fun s => ¬ Writes h s (.modNegate r m)) junk h bnNnmod r (.num m)
    simp only [exec, modNegate]
    split
    · rename_i d h1' e
      rw [e] at h1
      exact h1.trans (keeps_operator junk h1' bnSub m _)
    · exact h1
  | addOne r => exact (keeps_getOne h).trans (keeps_operator junk _ bnAdd r _)
  | subtractOne r => exact (keeps_getOne h).trans (keeps_operator junk _ bnSub r _)
  | zero => exact keeps_getZero h
  | one => exact keeps_getOne h
  | two => exact keeps_getTwo h
  | newCache m => exact ⟨le_refl _, fun _ _ _ => rfl⟩
  | cacheGet n =>
    have h1 := keeps_fromLong (S := fun s => ¬ Writes h s (.cacheGet n)) h n
    simp only [exec, cacheGet]
    split
    · exact Keeps.refl h
    · split
      · rename_i r h' e
        rw [e] at h1
        split
        · exact h1
        · exact ⟨h1.1, h1.2⟩
      · exact h1

theorem val_eq {h h' : Heap} {r : Nat} (e : h'.objs[r]? = h.objs[r]?) :
    h'.val r = h.val r ∧ h'.immutable r = h.immutable r := by
  simp only [Heap.val, Heap.immutable, List.getD_eq_getElem?_getD, e, and_self]

/-- **C116, one call**.  A call changes no existing object but the one it writes to: the object it
makes mutable, the one it shifts in place, or the mutable one whose other in-place operation it is;
and no object disappears. -/
theorem C116_frame (junk : Int) (h : Heap) (c : Call) (r : Nat) (hr : r < h.objs.length)
    (hw : ¬ Writes h r c) :
    r < (exec junk h c).2.objs.length ∧ (exec junk h c).2.val r = h.val r ∧
      (exec junk h c).2.immutable r = h.immutable r := by
  obtain ⟨h1, h2⟩ := keeps_exec junk h c
  exact ⟨by omega, val_eq (h2 r hr hw)⟩

/-- **C116, partial, immutable objects**.  An immutable object keeps its number and stays immutable
in every program that does not call `Mutable`, `<<=` or `>>=` on it.  (Full statement: also with the
last two; see `C116_immutable_fails`.) -/
theorem C116_immutable_partial (junk : Int) (h : Heap) (cs : List Call) (r : Nat)
    (hr : r < h.objs.length) (hi : h.immutable r = true)
    (hc : ∀ c ∈ cs, c ≠ .mutable r ∧ ∀ n, c ≠ .inPlaceLshift r n ∧ c ≠ .inPlaceRshift r n) :
    r < (run junk h cs).objs.length ∧ (run junk h cs).val r = h.val r ∧
      (run junk h cs).immutable r = true := by
  induction cs generalizing h with
  | nil => exact ⟨hr, rfl, hi⟩
  | cons c cs ih =>
    have hw : ¬ Writes h r c := by
      obtain ⟨h1, h2⟩ := hc c (List.mem_cons_self ..)
      intro hw
      cases c <;> simp only [Writes] at hw
      · exact h1 (by rw [hw])
      · rw [hi] at hw; simp at hw
      · rw [hi] at hw; simp at hw
      · rename_i n; exact (h2 n).1 (by rw [hw])
      · rename_i n; exact (h2 n).2 (by rw [hw])
    obtain ⟨a1, a2, a3⟩ := C116_frame junk h c r hr hw
    obtain ⟨b1, b2, b3⟩ := ih (exec junk h c).2 a1 (a3.trans hi)
      (fun c' hc' => hc c' (List.mem_cons_of_mem _ hc'))
    exact ⟨b1, b2.trans a2, b3⟩

/-- The full statement: an immutable object on which `Mutable` is not called keeps its number. -/
def C116Statement : Prop :=
  ∀ (junk : Int) (h : Heap) (cs : List Call) (r : Nat), r < h.objs.length → h.immutable r = true →
    (∀ c ∈ cs, c ≠ .mutable r) → (run junk h cs).val r = h.val r

/-- **C116 is false for the in-place shifts**: after `x = BigNum.One(); x <<= 3` the constant
`BigNum.One()` is 8, and `AddOne` of 5 is 13. -/
theorem C116_immutable_fails :
    ¬ C116Statement ∧
    (let h := run 0 {} [.one, .inPlaceLshift 0 3]
     (exec 0 h .one).1 = .ok (.num 0) ∧ h.val 0 = 8 ∧ h.immutable 0 = true ∧
     (run 0 h [.fromLong 5, .addOne 1]).val 2 = 13) := by
  refine ⟨fun h => ?_, by decide⟩
  have := h 0 (run 0 {} [.one]) [.inPlaceLshift 0 3] 0 (by decide) (by decide) (by simp)
  revert this
  decide

/-- The hypotheses of `C116_immutable_partial` hold of a program with in-place operations. -/
example :
    let h := run 0 {} [.fromLong 5, .clone 0, .mutable 1]
    0 < h.objs.length ∧ h.immutable 0 = true ∧
    (run 0 h [.inPlaceOperator bnAdd 1 (.num 0), .inPlaceOperator bnAdd 0 (.num 1),
      .inPlaceLshift 1 4, .div 1 (.num 0)]).objs.map Obj.val = [5, 160, 32, 0] := by
  decide

/-! ### Results -/

theorem alloc_val (h : Heap) (v : Int) : (h.alloc v).2.val (h.alloc v).1 = v := by
  simp [Heap.alloc, Heap.val, List.getD_eq_getElem?_getD]

theorem alloc_immutable (h : Heap) (v : Int) : (h.alloc v).2.immutable (h.alloc v).1 = true := by
  simp [Heap.alloc, Heap.immutable, List.getD_eq_getElem?_getD]

theorem alloc_val_old {h : Heap} {r : Nat} (hr : r < h.objs.length) (v : Int) :
    (h.alloc v).2.val r = h.val r := (val_eq (alloc_old hr v)).1

theorem write_val {h : Heap} {r : Nat} (hr : r < h.objs.length) (v : Int) :
    (h.write r v).val r = v ∧ (h.write r v).immutable r = h.immutable r := by
  simp [Heap.write, Heap.val, Heap.immutable, List.getD_eq_getElem?_getD, List.getElem?_modify,
    List.getElem?_eq_getElem hr]

/-- The object `r` is new in `h'`, holds `v` and is immutable. -/
def Fresh (h h' : Heap) (r : Nat) (v : Int) : Prop :=
  r = h.objs.length ∧ h'.objs.length = h.objs.length + 1 ∧ h'.val r = v ∧ h'.immutable r = true

/-- **C116, operators**.  `a op b` for two `BigNum`s is a new immutable object with the result of the
library function on the two numbers; if that function fails, an AssertionError.  With anything else
than a `BigNum` on the right it is a TypeError. -/
theorem C116_operator (junk : Int) (h : Heap) (f : Fn) (a : Nat) (ha : a < h.objs.length) :
    (∀ b, b < h.objs.length → ∀ v, f [h.val a, h.val b] = some v →
      ∃ h' r, operator junk h f a (.num b) = (.ok (.num r), h') ∧ Fresh h h' r v) ∧
    (∀ b, b < h.objs.length → f [h.val a, h.val b] = none →
      (operator junk h f a (.num b)).1 = .raises .assertionError) ∧
    (∀ x, (∀ b, x ≠ .num b) → (operator junk h f a x).1 = .raises .typeError) := by
  have hargs : ∀ b, b < h.objs.length →
      (h.alloc 0).2.args [.num a, .num b] = some [h.val a, h.val b] := by
    intro b hb
    simp [Heap.args, alloc_val_old ha, alloc_val_old hb]
  refine ⟨fun b hb v hv => ?_, fun b hb hv => ?_, fun x hx => ?_⟩
  · have hlt : (h.alloc 0).1 < (h.alloc 0).2.objs.length := by simp [Heap.alloc]
    refine ⟨(h.alloc 0).2.write (h.alloc 0).1 v, (h.alloc 0).1, ?_, rfl, ?_, ?_, ?_⟩
    · simp only [operator, computeResult, computeInto, hargs b hb, hv]
    · rw [write_length, alloc_length]
    · exact (write_val hlt v).1
    · rw [(write_val hlt v).2, alloc_immutable]
  · simp only [operator, computeResult, computeInto, hargs b hb, hv]
  · have : (h.alloc 0).2.args [.num a, x] = none := by
      cases x with
      | num b => exact absurd rfl (hx b)
      | _ => rfl
    simp only [operator, computeResult, computeInto, this]

/-- **C116, in-place operators**.  `a op= b` on an immutable object is a ValueError and changes
nothing; on a mutable one the object gets the result, and the other one keeps its number unless it is
the same object. -/
theorem C116_inPlace (junk : Int) (h : Heap) (f : Fn) (a b : Nat) (ha : a < h.objs.length) :
    (h.immutable a = true → ∀ x, inPlaceOperator junk h f a x = (.raises .valueError, h)) ∧
    (h.immutable a = false → ∀ v, f [h.val a, h.val b] = some v →
      ∃ h', inPlaceOperator junk h f a (.num b) = (.ok (.num a), h') ∧
        h'.objs.length = h.objs.length ∧ h'.val a = v ∧ h'.immutable a = false ∧
        ∀ c, c ≠ a → h'.val c = h.val c) := by
  refine ⟨fun hi x => ?_, fun hi v hv => ⟨h.write a v, ?_, write_length _ _ _, (write_val ha v).1, ?_,
    fun c hc => (val_eq (write_other v (Ne.symm hc))).1⟩⟩
  · simp [inPlaceOperator, computeResultInPlace, hi]
  · simp [inPlaceOperator, computeResultInPlace, hi, computeInto, Heap.args, hv]
  · rw [(write_val ha v).2, hi]

/-- **C116, arithmetic**.  Sums, differences, products and remainders are exact; a remainder modulo
zero is an AssertionError. -/
theorem C116_arithmetic (junk : Int) (h : Heap) (a b : Nat) (ha : a < h.objs.length)
    (hb : b < h.objs.length) :
    (∃ h' r, operator junk h bnAdd a (.num b) = (.ok (.num r), h') ∧
      Fresh h h' r (h.val a + h.val b)) ∧
    (∃ h' r, operator junk h bnSub a (.num b) = (.ok (.num r), h') ∧
      Fresh h h' r (h.val a - h.val b)) ∧
    (∃ h' r, operator junk h bnMul a (.num b) = (.ok (.num r), h') ∧
      Fresh h h' r (h.val a * h.val b)) ∧
    (h.val b ≠ 0 → ∃ h' r, operator junk h bnNnmod a (.num b) = (.ok (.num r), h') ∧
      Fresh h h' r (h.val a % h.val b)) ∧
    (h.val b = 0 → (operator junk h bnNnmod a (.num b)).1 = .raises .assertionError) :=
  ⟨(C116_operator junk h bnAdd a ha).1 b hb _ rfl, (C116_operator junk h bnSub a ha).1 b hb _ rfl,
    (C116_operator junk h bnMul a ha).1 b hb _ rfl,
    fun h0 => (C116_operator junk h bnNnmod a ha).1 b hb _ (by simp [bnNnmod, h0]),
    fun h0 => (C116_operator junk h bnNnmod a ha).2.1 b hb (by simp [bnNnmod, h0])⟩

/-- A method with `BigNum` arguments: a new immutable object with the result, or an AssertionError
where the library fails. -/
theorem method_fresh (junk : Int) (h : Heap) (f : Fn) {a : Nat} (ha : a < h.objs.length) (bs : List Nat)
    (hb : ∀ b ∈ bs, b < h.objs.length) :
    (∀ v, f (h.val a :: bs.map h.val) = some v →
      ∃ h' r, computeResult junk h f a (bs.map .num) = (.ok (.num r), h') ∧ Fresh h h' r v) ∧
    (f (h.val a :: bs.map h.val) = none →
      (computeResult junk h f a (bs.map .num)).1 = .raises .assertionError) := by
  have hv : ∀ b, b < h.objs.length → (h.alloc 0).2.val b = h.val b :=
    fun b hb => (val_eq (alloc_old hb _)).1
  have hargs : ∀ l : List Nat, (∀ b ∈ l, b < h.objs.length) →
      (h.alloc 0).2.args (l.map .num) = some (l.map h.val) := by
    intro l
    induction l with
    | nil => intro _; rfl
    | cons b l ih =>
      intro hl
      rw [List.map_cons, Heap.args, ih (fun b' h' => hl b' (List.mem_cons_of_mem _ h')),
        hv b (hl b List.mem_cons_self)]
      rfl
  have hall : (h.alloc 0).2.args (.num a :: bs.map .num) = some (h.val a :: bs.map h.val) := by
    rw [Heap.args, hargs bs hb, hv a ha]
    rfl
  have hlt : (h.alloc 0).1 < (h.alloc 0).2.objs.length := by
    rw [alloc_length]
    exact Nat.lt_succ_self _
  refine ⟨fun v hf => ⟨(h.alloc 0).2.write (h.alloc 0).1 v, (h.alloc 0).1,
    by simp only [computeResult, computeInto, hall, hf], ?_⟩, fun hf => ?_⟩
  · refine ⟨rfl, ?_, ?_, ?_⟩
    · rw [write_length, alloc_length]
    · exact (write_val hlt v).1
    · rw [(write_val hlt v).2, alloc_immutable]
  · simp only [computeResult, computeInto, hall, hf]

/-- **C116, methods**.  `a ** e` and `ModExp(e, m)` (for exponents that are not negative), `ModMul` and
`GCD` are exact; a modulus of zero is an AssertionError. -/
theorem C116_methods (junk : Int) (h : Heap) (a b m : Nat) (ha : a < h.objs.length)
    (hb : b < h.objs.length) (hm : m < h.objs.length) :
    (0 ≤ h.val b → ∃ h' r, operator junk h bnExp a (.num b) = (.ok (.num r), h') ∧
      Fresh h h' r (h.val a ^ (h.val b).toNat)) ∧
    (h.val m ≠ 0 → ∃ h' r, computeResult junk h bnModMul a [.num b, .num m] = (.ok (.num r), h') ∧
      Fresh h h' r (h.val a * h.val b % h.val m)) ∧
    (0 ≤ h.val b → h.val m ≠ 0 →
      ∃ h' r, computeResult junk h bnModExp a [.num b, .num m] = (.ok (.num r), h') ∧
      Fresh h h' r (h.val a ^ (h.val b).toNat % h.val m)) ∧
    (h.val m = 0 →
      (computeResult junk h bnModMul a [.num b, .num m]).1 = .raises .assertionError ∧
      (computeResult junk h bnModExp a [.num b, .num m]).1 = .raises .assertionError) ∧
    (∃ h' r g, computeResult junk h bnGcd a [.num b] = (.ok (.num r), h') ∧ Fresh h h' r g ∧
      0 ≤ g ∧ g ∣ h.val a ∧ g ∣ h.val b ∧ ∀ d, d ∣ h.val a → d ∣ h.val b → d ∣ g) := by
  have e : ∀ x : Int, 0 ≤ x → x.natAbs = x.toNat := fun x hx => by omega
  have h2 : ∀ x ∈ [b, m], x < h.objs.length := by
    intro x hx
    simp only [List.mem_cons, List.not_mem_nil, or_false] at hx
    rcases hx with rfl | rfl
    · exact hb
    · exact hm
  refine ⟨fun h0 => (C116_operator junk h bnExp a ha).1 b hb _ (by simp [bnExp, e _ h0]),
    fun h0 => (method_fresh junk h bnModMul ha [b, m] h2).1 _ (by simp [bnModMul, h0]),
    fun h0 h1 => (method_fresh junk h bnModExp ha [b, m] h2).1 _ (by simp [bnModExp, h1, e _ h0]),
    fun h0 => ⟨(method_fresh junk h bnModMul ha [b, m] h2).2 (by simp [bnModMul, h0]),
      (method_fresh junk h bnModExp ha [b, m] h2).2 (by simp [bnModExp, h0])⟩, ?_⟩
  obtain ⟨h', r, h1, h3⟩ := (method_fresh junk h bnGcd ha [b] (fun x hx => by
    rw [List.mem_singleton] at hx
    rw [hx]
    exact hb)).1 _ rfl
  exact ⟨h', r, _, h1, h3, Int.natCast_nonneg _, Int.gcd_dvd_left .., Int.gcd_dvd_right ..,
    fun d h4 h5 => Int.dvd_coe_gcd h4 h5⟩

/-- The heap after making 12, 5 and 7: `12 * 5 mod 7 = 4`, `12 ^ 5 mod 7 = 3`, `gcd(12, 5) = 1`. -/
example :
    let h := run 0 {} [.fromLong 12, .fromLong 5, .fromLong 7]
    (computeResult 0 h bnModMul 0 [.num 1, .num 2]).2.val 3 = 4 ∧
    (computeResult 0 h bnModExp 0 [.num 1, .num 2]).2.val 3 = 3 ∧
    (computeResult 0 h bnGcd 0 [.num 1]).2.val 3 = 1 := by
  decide +kernel

/-- **C116, bytes**.  A `BigNum` made from a number gives this number back, and from bytes their
big-endian value; a negative number is refused. -/
theorem C116_roundtrip (h : Heap) :
    (∀ n, 0 ≤ n → ∃ h' r, fromLongNumber h n = (.ok (.num r), h') ∧ Fresh h h' r n ∧
      getAsLong h' r = n) ∧
    (∀ n, n < 0 → fromLongNumber h n = (.raises .valueError, h)) ∧
    (∀ bs, ∃ h' r, fromBytes h bs = (.ok (.num r), h') ∧ Fresh h h' r (BN.ofBytes bs) ∧
      getAsLong h' r = BN.ofBytes bs) := by
  have key : ∀ v : Int, 0 ≤ v → Fresh h (h.alloc v).2 (h.alloc v).1 v ∧
      getAsLong (h.alloc v).2 (h.alloc v).1 = v := by
    intro v hv
    refine ⟨⟨rfl, alloc_length _ _, alloc_val _ _, alloc_immutable _ _⟩, ?_⟩
    rw [getAsLong, getAsBytes, bytesToLong_eq, alloc_val, BN.ofBytes_natToBytes]
    omega
  refine ⟨fun n hn => ⟨_, _, by simp only [fromLongNumber, not_lt.2 hn, if_false], key n hn⟩,
    fun n hn => by simp [fromLongNumber, hn], fun bs => ⟨_, _, rfl, key _ (BN.ofBytes_nonneg bs)⟩⟩

/-- **C116, signs are lost**: the number and the bytes that `GetAsLong` and `GetAsBytes` give are
those of the absolute value, so `(1 - 2).GetAsLong()` is 1. -/
theorem C116_sign_fails :
    (∀ (h : Heap) (r : Nat), getAsLong h r = |h.val r|) ∧
    (let h := run 0 {} [.fromLong 1, .fromLong 2, .operator bnSub 0 (.num 1)]
     h.val 2 = -1 ∧ getAsLong h 2 = 1) := by
  refine ⟨fun h r => ?_, by decide⟩
  rw [getAsLong, getAsBytes, bytesToLong_eq, BN.ofBytes_natToBytes]
  exact Int.natCast_natAbs _

/-- **C116, division**.  When `BigNum.Zero()` is unchanged: `a / b` is the exact quotient if there is
one, a ValueError if there is a remainder, and an AssertionError for `b = 0`.  With a right-hand side
that is no `BigNum` the expression is `None`. -/
theorem C116_division (h : Heap) (a : Nat) (ha : a < h.objs.length)
    (hz : ∀ z, h.zero = some z → z < h.objs.length ∧ h.val z = 0) :
    (∀ b, b < h.objs.length → h.val b ≠ 0 → ∀ q, h.val a = q * h.val b →
      ∃ h' r, div h a (.num b) = (.ok (.num r), h') ∧ h'.val r = q ∧ h'.immutable r = true) ∧
    (∀ b, b < h.objs.length → h.val b ≠ 0 → ¬ h.val b ∣ h.val a →
      (div h a (.num b)).1 = .raises .valueError) ∧
    (∀ b, b < h.objs.length → h.val b = 0 → (div h a (.num b)).1 = .raises .assertionError) ∧
    (∀ x, (∀ b, x ≠ .num b) → (div h a x).1 = .ok .none) := by
  have hlt : (h.alloc 0).1 < (h.alloc 0).2.objs.length := by simp [Heap.alloc]
  have hz' : ∀ v, (getZero ((h.alloc 0).2.write (h.alloc 0).1 v)).2.val
      (getZero ((h.alloc 0).2.write (h.alloc 0).1 v)).1 = 0 := by
    intro v
    have e : ((h.alloc 0).2.write (h.alloc 0).1 v).zero = h.zero := rfl
    unfold getZero
    rw [e]
    cases hzz : h.zero with
    | none => exact alloc_val _ 0
    | some z =>
      obtain ⟨z1, z2⟩ := hz z hzz
      have h1 : ((h.alloc 0).2.write (h.alloc 0).1 v).val z = (h.alloc 0).2.val z :=
        (val_eq (write_other v (by simp only [Heap.alloc]; omega))).1
      exact h1.trans ((alloc_val_old z1 0).trans z2)
  refine ⟨fun b hb h0 q hq => ?_, fun b hb h0 hq => ?_, fun b hb h0 => ?_, fun x hx => ?_⟩
  · have hm : Int.tmod (h.val a) (h.val b) = 0 := by rw [hq, Int.mul_tmod_left]
    have hd : Int.tdiv (h.val a) (h.val b) = q := by rw [hq, Int.mul_tdiv_cancel _ h0]
    refine ⟨_, (h.alloc 0).1, by
      simp only [div, alloc_val_old hb, alloc_val_old ha, h0, if_false, hm, hd, hz', ne_eq,
        not_true_eq_false]; rfl, ?_⟩
    have hk := (keeps_getZero (S := fun _ => True) ((h.alloc 0).2.write (h.alloc 0).1 q)).2
      (h.alloc 0).1 (by rw [write_length]; exact hlt) trivial
    obtain ⟨e1, e2⟩ := val_eq hk
    exact ⟨e1.trans (write_val hlt q).1, e2.trans ((write_val hlt q).2.trans (alloc_immutable _ _))⟩
  · have hm : Int.tmod (h.val a) (h.val b) ≠ 0 := fun hm => hq (Int.dvd_of_tmod_eq_zero hm)
    simp only [div, alloc_val_old hb, alloc_val_old ha, h0, if_false, hz', ne_eq, hm,
      not_false_eq_true, if_true]
  · simp only [div, alloc_val_old hb, h0, if_true]
  · cases x with
    | num b => exact absurd rfl (hx b)
    | _ => rfl

/-- Twelve by three is four, by five an error. -/
example :
    let h := run 0 {} [.fromLong 12, .fromLong 3, .fromLong 5]
    (exec 0 h (.div 0 (.num 1))).1 = .ok (.num 3) ∧ (exec 0 h (.div 0 (.num 1))).2.val 3 = 4 ∧
      (exec 0 h (.div 0 (.num 2))).1 = .raises .valueError ∧
      (exec 0 h (.div 0 (.int 3))).1 = .ok .none := by decide

/-- **C116, inverses**.  `ModInverse` gives the inverse modulo a modulus above 1, and a ValueError
when there is none. -/
theorem C116_modInverse (junk : Int) (h : Heap) (a m : Nat) (ha : a < h.objs.length)
    (hm : m < h.objs.length) (h1 : 1 < h.val m) :
    (Int.gcd (h.val a) (h.val m) = 1 → ∃ h' r v, modInverse junk h a (.num m) = (.ok (.num r), h') ∧
      Fresh h h' r v ∧ 0 ≤ v ∧ v < h.val m ∧ h.val a * v % h.val m = 1) ∧
    (Int.gcd (h.val a) (h.val m) ≠ 1 → (modInverse junk h a (.num m)).1 = .raises .valueError) := by
  have hargs : (h.alloc 0).2.args [.num a, .num m] = some [h.val a, h.val m] := by
    simp [Heap.args, alloc_val_old ha, alloc_val_old hm]
  have hlt : (h.alloc 0).1 < (h.alloc 0).2.objs.length := by simp [Heap.alloc]
  constructor
  · intro hg
    have hf : bnModInverse [h.val a, h.val m] = some (BN.inv (h.val a) (h.val m)) := by
      simp only [bnModInverse]
      rw [if_neg (by omega)]
    obtain ⟨i3, i1, i2⟩ := BN.inv_spec (show 0 < h.val m by omega) hg
    have i3 : h.val a * BN.inv (h.val a) (h.val m) % h.val m = 1 := by
      rw [i3.eq]
      exact Int.emod_eq_of_lt (by norm_num) h1
    refine ⟨(h.alloc 0).2.write (h.alloc 0).1 _, (h.alloc 0).1, _, ?_,
      ⟨rfl, by rw [write_length, alloc_length], (write_val hlt _).1,
        by rw [(write_val hlt _).2, alloc_immutable]⟩, i1, i2, i3⟩
    simp only [modInverse, computeResult, computeInto, hargs, hf]
  · intro hg
    have hf : bnModInverse [h.val a, h.val m] = none := by
      simp only [bnModInverse]
      rw [if_pos (Or.inr hg)]
    simp only [modInverse, computeResult, computeInto, hargs, hf]

/-- **C116, `ModNegate`**.  The result is the modulus minus the remainder; it is congruent to minus
the number and lies in `[1, m]`. -/
theorem C116_modNegate (junk : Int) (h : Heap) (a m : Nat) (ha : a < h.objs.length)
    (hm : m < h.objs.length) (h1 : 0 < h.val m) :
    ∃ h' r v, modNegate junk h a m = (.ok (.num r), h') ∧ h'.val r = v ∧
      h'.immutable r = true ∧ h.val m ∣ v + h.val a ∧ 1 ≤ v ∧ v ≤ h.val m := by
  obtain ⟨h1', r1, e1, f1⟩ := (C116_arithmetic junk h a m ha hm).2.2.2.1 (by omega)
  obtain ⟨f11, f12, f13, f14⟩ := f1
  have hm' : m < h1'.objs.length := by omega
  obtain ⟨h2, r2, e2, f2⟩ := (C116_arithmetic junk h1' m r1 hm' (by omega)).2.1
  have hk := (keeps_operator (S := fun _ => True) junk h bnNnmod a (.num m)).2 m hm trivial
  rw [e1] at hk
  have hv := (val_eq hk).1
  have h3 := Int.emod_nonneg (h.val a) (show h.val m ≠ 0 by omega)
  have h4 := Int.emod_lt_of_pos (h.val a) h1
  refine ⟨h2, r2, _, by simp only [modNegate, e1]; exact e2, f2.2.2.1, f2.2.2.2, ?_, ?_, ?_⟩
  · rw [hv, f13]
    have := Int.emod_add_mul_ediv (h.val a) (h.val m)
    exact ⟨1 + h.val a / h.val m, by linarith⟩
  · rw [hv, f13]
    omega
  · rw [hv, f13]
    omega

/-- **C116, `ModNegate` of a multiple of the modulus** is the modulus itself, not 0. -/
theorem C116_modNegate_zero_fails :
    let h := run 0 {} [.fromLong 14, .fromLong 7, .modNegate 0 1]
    (exec 0 (run 0 {} [.fromLong 14, .fromLong 7]) (.modNegate 0 1)).1 = .ok (.num 3) ∧
      h.val 3 = 7 := by decide

/-- **C116, random numbers**.  `GenerateRandWithStart` gives a number in `[start, self)`, every one
for some random word, and an AssertionError when this range is empty. -/
theorem C116_random (junk : Int) (h : Heap) (a b : Nat) (ha : a < h.objs.length)
    (hb : b < h.objs.length) :
    (h.val b < h.val a → ∀ w, ∃ h' r, generateRandWithStart junk h a (.num b) w = (.ok (.num r), h') ∧
      h.val b ≤ h'.val r ∧ h'.val r < h.val a) ∧
    (h.val b < h.val a → ∀ v, h.val b ≤ v → v < h.val a → ∃ w h' r,
      generateRandWithStart junk h a (.num b) w = (.ok (.num r), h') ∧ h'.val r = v) ∧
    (h.val a ≤ h.val b → ∀ w,
      (generateRandWithStart junk h a (.num b) w).1 = .raises .assertionError) := by
  obtain ⟨h1, r1, e1, f1⟩ := (C116_arithmetic junk h a b ha hb).2.1
  obtain ⟨f11, f12, f13, f14⟩ := f1
  have hk := (keeps_operator (S := fun _ => True) junk h bnSub a (.num b)).2 b hb trivial
  rw [e1] at hk
  have hbv := (val_eq hk).1
  have key : h.val b < h.val a → ∀ w : Nat, ∃ h' r,
      generateRandWithStart junk h a (.num b) w = (.ok (.num r), h') ∧
      h'.val r = (w : Int) % (h.val a - h.val b) + h.val b := by
    intro hlt w
    have hpos : ¬ h1.val r1 ≤ 0 := by rw [f13]; omega
    have eg : generateRand h1 r1 w = (.ok (.num (h1.alloc ((w : Int) % h1.val r1)).1),
        (h1.alloc ((w : Int) % h1.val r1)).2) := by
      simp only [generateRand, hpos, if_false]
    have hb1 : b < h1.objs.length := by omega
    obtain ⟨h3, r3, e3, f3⟩ := (C116_arithmetic junk (h1.alloc ((w : Int) % h1.val r1)).2
      (h1.alloc ((w : Int) % h1.val r1)).1 b (by simp [Heap.alloc]) (by rw [alloc_length]; omega)).1
    refine ⟨h3, r3, by simp only [generateRandWithStart, e1, eg, e3], ?_⟩
    rw [f3.2.2.1, alloc_val, alloc_val_old hb1, hbv, f13]
  refine ⟨fun hlt w => ?_, fun hlt v hv1 hv2 => ?_, fun hle w => ?_⟩
  · obtain ⟨h', r, e, v⟩ := key hlt w
    refine ⟨h', r, e, ?_, ?_⟩
    · have := Int.emod_nonneg (w : Int) (show h.val a - h.val b ≠ 0 by omega)
      omega
    · have := Int.emod_lt_of_pos (w : Int) (show 0 < h.val a - h.val b by omega)
      omega
  · obtain ⟨h', r, e, hv⟩ := key hlt (v - h.val b).toNat
    refine ⟨_, h', r, e, ?_⟩
    rw [hv, Int.toNat_of_nonneg (by omega), Int.emod_eq_of_lt (by omega) (by omega)]
    omega
  · have hpos : h1.val r1 ≤ 0 := by rw [f13]; omega
    simp only [generateRandWithStart, e1, generateRand, hpos, if_true]

/-- **C116, shifts**.  `a << n` multiplies by `2^n` for counts below 2^31; a negative count is an
AssertionError. -/
theorem C116_shift (h : Heap) (a : Nat) (n : Int) (junk : Int) :
    (0 ≤ n → n < 2 ^ 31 → ∃ h' r, exec junk h (.lshift a n) = (.ok (.num r), h') ∧
      Fresh h h' r (h.val a * 2 ^ n.toNat)) ∧
    (0 ≤ n → n < 2 ^ 31 → 0 ≤ h.val a → ∃ h' r, exec junk h (.rshift a n) = (.ok (.num r), h') ∧
      Fresh h h' r (h.val a / 2 ^ n.toNat)) ∧
    (- 2 ^ 31 ≤ n → n < 0 → exec junk h (.lshift a n) = (.raises .assertionError, h) ∧
      exec junk h (.rshift a n) = (.raises .assertionError, h)) := by
  have hc : - 2 ^ 31 ≤ n → n < 2 ^ 31 → cInt n = n := by
    intro h1 h2
    unfold cInt
    rw [Int.emod_eq_of_lt (by omega) (by omega)]
    omega
  refine ⟨fun h0 h1 => ?_, fun h0 h1 h2 => ?_, fun h0 h1 => ?_⟩
  · refine ⟨(h.alloc _).2, (h.alloc _).1, ?_, rfl, alloc_length _ _, alloc_val _ _,
      alloc_immutable _ _⟩
    simp only [exec, shift, hc (by omega) h1, bnLshift, not_lt.2 h0, if_false]
  · refine ⟨(h.alloc _).2, (h.alloc _).1, ?_, rfl, alloc_length _ _, alloc_val _ _,
      alloc_immutable _ _⟩
    simp only [exec, shift, hc (by omega) h1, bnRshift, not_lt.2 h0, if_false,
      Int.tdiv_eq_ediv_of_nonneg h2]
  · simp [exec, shift, hc (by omega) (by omega), bnLshift, bnRshift, h1]

/-- **C116, large counts** are taken modulo 2^32: `x << 2**32` is `x`. -/
theorem C116_shift_wraps_fails (h : Heap) (a : Nat) (junk : Int) :
    ∃ h' r, exec junk h (.lshift a (2 ^ 32)) = (.ok (.num r), h') ∧ h'.val r = h.val a := by
  refine ⟨(h.alloc (h.val a)).2, (h.alloc (h.val a)).1, ?_, alloc_val _ _⟩
  have : cInt (2 ^ 32) = 0 := by decide
  simp only [exec, shift, this, bnLshift]
  simp

/-! ### Comparison and the cache -/

/-- **C116, comparison**.  `==` and `<` compare the numbers; with anything that is no `BigNum` they
raise ValueError. -/
theorem C116_compare (h : Heap) (a b : Nat) :
    (eq h a (.num b) = .ok true ↔ h.val a = h.val b) ∧
    (lt h a (.num b) = .ok true ↔ h.val a < h.val b) ∧
    (∀ x, (∀ c, x ≠ .num c) → eq h a x = .error .valueError ∧ lt h a x = .error .valueError) := by
  refine ⟨by simp [eq], by simp [lt], fun x hx => ?_⟩
  cases x with
  | num c => exact absurd rfl (hx c)
  | _ => exact ⟨rfl, rfl⟩

/-- The entries of the cache are objects that hold their key, and there are at most `maxCount`. -/
structure CacheOk (h : Heap) : Prop where
  entry : ∀ n r, h.cache.lookup n = some r → r < h.objs.length ∧ h.val r = n
  size : (h.cache.length : Int) ≤ max h.maxCount 0

/-- **C116, the cache**.  `Get(n)` gives an object that holds `n`, the same object on the next call
if it was stored, never stores more than `max_count`, and refuses negative numbers. -/
theorem C116_cache (h : Heap) (hc : CacheOk h) (n : Int) :
    (0 ≤ n → ∃ h' r, cacheGet h n = (.ok (.num r), h') ∧ CacheOk h' ∧ h'.val r = n ∧
      h'.maxCount = h.maxCount ∧
      (h'.cache.lookup n = some r ∨ h.maxCount ≤ h.cache.length ∧ h'.cache = h.cache) ∧
      (h'.cache.lookup n = some r → cacheGet h' n = (.ok (.num r), h'))) ∧
    (n < 0 → h.cache.lookup n = none → cacheGet h n = (.raises .valueError, h)) ∧
    (∀ m, CacheOk (newCache h m)) := by
  refine ⟨fun hn => ?_, fun hn hl => ?_, fun m => ⟨by simp [newCache], by simp [newCache]⟩⟩
  · cases hl : h.cache.lookup n with
    | some r =>
      exact ⟨h, r, by simp only [cacheGet, hl], hc, (hc.entry n r hl).2, rfl, Or.inl hl,
        fun _ => by simp only [cacheGet, hl]⟩
    | none =>
      have hold : ∀ k r, h.cache.lookup k = some r →
          r < (h.alloc n).2.objs.length ∧ (h.alloc n).2.val r = k := by
        intro k r hk
        obtain ⟨e1, e2⟩ := hc.entry k r hk
        exact ⟨by rw [alloc_length]; omega, (alloc_val_old e1 n).trans e2⟩
      by_cases hm : h.maxCount ≤ h.cache.length
      · refine ⟨(h.alloc n).2, (h.alloc n).1, ?_, ⟨hold, hc.size⟩, alloc_val _ _, rfl,
          Or.inr ⟨hm, rfl⟩, fun h2 => ?_⟩
        · simp only [cacheGet, hl, fromLongNumber, not_lt.2 hn, if_false, hm, if_true]
        · exact absurd (show h.cache.lookup n = _ from h2) (by rw [hl]; simp)
      · refine ⟨{ (h.alloc n).2 with cache := (n, (h.alloc n).1) :: (h.alloc n).2.cache },
          (h.alloc n).1, ?_, ⟨?_, ?_⟩, alloc_val _ _, rfl, Or.inl (by simp), fun _ => by
            simp [cacheGet]⟩
        · simp only [cacheGet, hl, fromLongNumber, not_lt.2 hn, if_false, hm]
        · intro k r hk
          by_cases hkn : k = n
          · subst hkn
            simp only [List.lookup_cons_self, Option.some.injEq] at hk
            subst hk
            exact ⟨by simp [Heap.alloc], alloc_val h k⟩
          · have : h.cache.lookup k = some r := by
              rw [← hk]
              simp only [List.lookup_cons, beq_false_of_ne hkn]
              rfl
            exact hold k r this
        · have := hc.size
          simp only [Heap.alloc, List.length_cons]
          push_cast
          omega
  · simp [cacheGet, hl, fromLongNumber, hn]

example : CacheOk {} := ⟨by simp, by simp⟩

/-- **C116, the cache is one**: making a second `BigNumCache` empties the first and changes its
limit. -/
theorem C116_cache_shared_fails :
    let h := run 0 {} [.newCache 10, .cacheGet 3]
    h.cache = [(3, 0)] ∧ (newCache h 0).cache = [] ∧
      (exec 0 (newCache h 0) (.cacheGet 3)).1 = .ok (.num 1) := by decide

end PJC.Py.Bn
