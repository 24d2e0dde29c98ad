import Verif.Model.CsvBuffer
import Verif.Props.DataUtil
/-
C135: a CSV line is split without leaving the buffer, and unescaping in place does no harm.

Specification.  `splitCsvLine` gives the columns of a line as strings (C35 says what they are).  The
function on memory returns the same; undefined behaviour is left only for `std::isspace` on characters
that are negative numbers: where `char` is signed and a column without quotes begins or ends with a byte
from 128 to 254.
-/
namespace PJC.CsvBuffer
open PJC PJC.Data

/-- Specification: the columns as `splitLoop` finds them, with a flag that says whether the column is
quoted. -/
def columnsLoop : Nat → Bytes → List (Bool × Bytes)
  | 0, _ => []
  | fuel + 1, text =>
    if text = [] then [] else
    let text := text.dropWhile fun b => isSpace b && b != comma
    let (value, rest) :=
      match text with
      | [] => ((false, []), [])
      | b :: r =>
        if b = dquote then
          let (v, rest) := quotedValue r
          ((true, v), rest.dropWhile (· != comma))
        else
          ((false, trimRight (text.takeWhile (· != comma))), text.dropWhile (· != comma))
    let more := if rest = [comma] then [(false, [])] else []
    value :: (more ++ columnsLoop fuel rest.tail)

/-- Specification: the columns of a line. -/
def columns (line : Bytes) : List (Bool × Bytes) :=
  columnsLoop ((cString line).length + 1) (cString line)

/-- Specification: a column without quotes that begins or ends with a byte from 128 to 254. -/
def Foreign (c : Bool × Bytes) : Prop :=
  c.1 = false ∧ ((∃ b ∈ c.2.head?, 128 ≤ b.val ∧ b.val < 255) ∨ ∃ b ∈ c.2.getLast?, 128 ≤ b.val ∧ b.val < 255)

theorem columnsLoop_snd : ∀ (fuel : Nat) (text : Bytes),
    (columnsLoop fuel text).map Prod.snd = splitLoop fuel text
  | 0, _ => rfl
  | fuel + 1, text => by
    unfold columnsLoop splitLoop
    by_cases ht : text = []
    · simp [ht]
    · simp only [if_neg ht]
      cases hd : text.dropWhile fun b => isSpace b && b != comma with
      | nil => simp [columnsLoop_snd fuel]
      | cons b r =>
        by_cases hb : b = dquote
        · simp only [hb, if_true, List.map_cons, List.map_append, columnsLoop_snd fuel]
          split <;> rfl
        · simp only [hb, if_false, List.map_cons, List.map_append, columnsLoop_snd fuel]
          split <;> rfl

/-- The columns are those of C35. -/
theorem C135_columns (line : Bytes) : (columns line).map Prod.snd = splitCsvLine line :=
  columnsLoop_snd _ _

/-! ### C strings -/

/-- The C string at `i` is `l`. -/
def CStr (mem : Mem) : Nat → Bytes → Prop
  | i, [] => mem i = 0
  | i, b :: r => mem i = b ∧ b ≠ 0 ∧ CStr mem (i + 1) r

theorem CStr.congr {mem mem' : Mem} : ∀ {l : Bytes} {i : Nat}, CStr mem i l →
    (∀ j, i ≤ j → j ≤ i + l.length → mem' j = mem j) → CStr mem' i l
  | [], i, h, e => by rw [CStr, e i le_rfl (by simp)]; exact h
  | b :: r, i, h, e => by
    refine ⟨by rw [e i le_rfl (by omega)]; exact h.1, h.2.1, h.2.2.congr fun j h1 h2 => ?_⟩
    exact e j (by omega) (by simp; omega)

theorem CStr.drop {mem : Mem} : ∀ {a r : Bytes} {i : Nat}, CStr mem i (a ++ r) →
    CStr mem (i + a.length) r
  | [], _, _, h => h
  | _ :: a, r, i, h => by
    have := CStr.drop (a := a) h.2.2
    rwa [show i + 1 + a.length = i + (a.length + 1) by omega] at this

theorem CStr.ne {mem : Mem} : ∀ {l : Bytes} {i : Nat}, CStr mem i l → ∀ b ∈ l, b ≠ 0
  | _ :: r, i, h, c, hc => by
    rcases List.mem_cons.1 hc with rfl | hc
    · exact h.2.1
    · exact CStr.ne h.2.2 c hc

theorem CStr.at {mem : Mem} {l : Bytes} {i : Nat} (h : CStr mem i l) : mem i = l.headD 0 := by
  cases l with
  | nil => exact h
  | cons b r => exact h.1

theorem read_ok {size : Nat} {mem : Mem} {i : Nat} (h : i < size) : read size mem i = .ok (mem i) := if_pos h

theorem strlen_ok {size : Nat} {mem : Mem} : ∀ {l : Bytes} {i f : Nat}, CStr mem i l →
    i + l.length < size → l.length < f → strlen size mem f i = .ok (i + l.length)
  | [], i, f + 1, h, hs, _ => by
    rw [strlen, read_ok (by simpa using hs), Res.ok_bind, if_pos (show mem i = 0 from h)]; rfl
  | b :: r, i, f + 1, h, hs, hf => by
    simp only [List.length_cons] at hs hf
    rw [strlen, read_ok (by omega), Res.ok_bind, h.1, if_neg h.2.1,
      strlen_ok h.2.2 (by omega) (by omega), List.length_cons]
    congr 1; omega

theorem readString_ok {size : Nat} {mem : Mem} : ∀ {l : Bytes} {i f : Nat}, CStr mem i l →
    i + l.length < size → l.length < f → readString size mem f i = .ok l
  | [], i, f + 1, h, hs, _ => by
    rw [readString, read_ok (by simpa using hs), Res.ok_bind, if_pos (show mem i = 0 from h)]
  | b :: r, i, f + 1, h, hs, hf => by
    simp only [List.length_cons] at hs hf
    rw [readString, read_ok (by omega), Res.ok_bind, h.1, if_neg h.2.1,
      readString_ok h.2.2 (by omega) (by omega), Res.ok_bind]

/-- The first comma. -/
theorem strchr_ok {size : Nat} {mem : Mem} : ∀ {l : Bytes} {i f eol : Nat}, CStr mem i l →
    i + l.length = eol → eol < size → l.length < f → ∃ o, strchr size mem f i = .ok o ∧
      o.getD eol = i + (l.takeWhile (· != comma)).length
  | [], i, f + 1, eol, h, he, hs, _ => by
    have he' : i = eol := by simpa using he
    rw [strchr, read_ok (by omega), Res.ok_bind, show mem i = 0 from h]
    exact ⟨none, by rw [if_neg (by decide), if_pos rfl], by simp [he']⟩
  | b :: r, i, f + 1, eol, h, he, hs, hf => by
    simp only [List.length_cons] at he hf
    rw [strchr, read_ok (by omega), Res.ok_bind, h.1]
    by_cases hb : b = comma
    · exact ⟨some i, by rw [if_pos hb], by simp [hb]⟩
    · obtain ⟨o, ho, e⟩ := strchr_ok (size := size) (mem := mem) (f := f) (eol := eol) h.2.2 (by omega) hs
        (by omega)
      refine ⟨o, by rw [if_neg hb, if_neg h.2.1, ho], ?_⟩
      rw [e, List.takeWhile_cons_of_pos (by simpa using hb), List.length_cons]
      omega

theorem space_ascii : ∀ b : Byte, isSpace b = true → ¬ (128 ≤ b.val ∧ b.val < 255) := by decide +kernel

/-- White space is skipped, or a byte from 128 to 254 is met. -/
theorem skipSpace_ok {signed : Bool} {size : Nat} {mem : Mem} : ∀ {l : Bytes} {i f : Nat}, CStr mem i l →
    i + l.length < size → l.length < f → skipSpace signed size mem f i =
      if signed = true ∧ ∃ b ∈ (l.dropWhile fun b => isSpace b && b != comma).head?, 128 ≤ b.val ∧ b.val < 255 then .ub
      else .ok (i + (l.takeWhile fun b => isSpace b && b != comma).length)
  | [], i, f + 1, h, hs, _ => by
    rw [skipSpace, read_ok (by omega), Res.ok_bind, show mem i = 0 from h]
    have e : isSpace 0 = false := by decide
    simp [isspaceChar, e]
  | b :: r, i, f + 1, h, hs, hf => by
    simp only [List.length_cons] at hs hf
    rw [skipSpace, read_ok (by omega), Res.ok_bind, h.1]
    by_cases hb : (isSpace b && b != comma) = true
    · have h128 : ¬ (128 ≤ b.val ∧ b.val < 255) := by
        simp only [Bool.and_eq_true] at hb
        exact space_ascii b hb.1
      rw [List.dropWhile_cons_of_pos (p := fun b => isSpace b && b != comma) hb,
        List.takeWhile_cons_of_pos (p := fun b => isSpace b && b != comma) hb, isspaceChar,
        if_neg (by simp only [h128, decide_false, Bool.and_false]; decide), Res.ok_bind, if_pos hb, skipSpace_ok h.2.2 (by omega) (by omega),
        List.length_cons, Nat.add_assoc, Nat.add_comm 1]
    · rw [List.dropWhile_cons_of_neg (p := fun b => isSpace b && b != comma) hb,
        List.takeWhile_cons_of_neg (p := fun b => isSpace b && b != comma) hb]
      by_cases h1 : signed = true ∧ 128 ≤ b.val ∧ b.val < 255
      · rw [if_pos ⟨h1.1, b, by simp, h1.2⟩, isspaceChar, if_pos (by simp [h1]), Res.ub_bind]
      · rw [if_neg (by
          rintro ⟨hs, c, hc, h2⟩
          simp at hc
          exact h1 ⟨hs, hc ▸ h2⟩), isspaceChar, if_neg (by
          simp only [Bool.and_eq_true, decide_eq_true_eq]; exact h1), Res.ok_bind, if_neg hb]
        rfl

theorem quotedValue_other {b : Byte} (hb : b ≠ dquote) (r : Bytes) :
    quotedValue (b :: r) = (b :: (quotedValue r).1, (quotedValue r).2) := by
  cases r with
  | nil => simp [quotedValue, hb]
  | cons c r => rw [quotedValue, if_neg hb]

theorem quotedValue_twice (r : Bytes) :
    quotedValue (dquote :: dquote :: r) = (dquote :: (quotedValue r).1, (quotedValue r).2) := by
  rw [quotedValue, if_pos rfl, if_pos rfl]

theorem quotedValue_once {r : Bytes} (h : r.headD 0 ≠ dquote) : quotedValue (dquote :: r) = ([], r) := by
  cases r with
  | nil => simp [quotedValue]
  | cons c r => rw [quotedValue, if_pos rfl, if_neg (show c ≠ dquote from h)]

/-- What is left in the buffer after unescaping `l` from `line` on, written from `fin` on. -/
structure Unquoted (mem : Mem) (line fin : Nat) (l : Bytes) (mem' : Mem) (skip : Nat) : Prop where
  len : skip + (quotedValue l).2.length = l.length
  le : fin + (quotedValue l).1.length ≤ line + skip
  below : ∀ j < fin, mem' j = mem j
  rest : CStr mem' (line + skip) (quotedValue l).2
  value : ∀ j (h : j < (quotedValue l).1.length), mem' (fin + j) = (quotedValue l).1[j]
  nonzero : ∀ b ∈ (quotedValue l).1, b ≠ 0

theorem Unquoted.step {mem : Mem} {line fin k : Nat} {l r : Bytes} {b : Byte} {mem' : Mem} {skip : Nat}
    (h : Unquoted (Function.update mem fin b) (line + k) (fin + 1) r mem' skip)
    (hl : l.length = r.length + k) (hq : quotedValue l = (b :: (quotedValue r).1, (quotedValue r).2))
    (hb : b ≠ 0) : Unquoted mem line fin l mem' (k + skip) := by
  obtain ⟨h1, h2, h3, h4, h5, h6⟩ := h
  refine ⟨?_, ?_, ?_, ?_, ?_, ?_⟩
  · rw [hq]; dsimp only; omega
  · rw [hq]; simp only [List.length_cons]; omega
  · intro j hj
    rw [h3 j (by omega), Function.update_of_ne (by omega)]
  · rw [hq, ← Nat.add_assoc]; exact h4
  · intro j hj
    simp only [hq]
    cases j with
    | zero => rw [Nat.add_zero, h3 fin (by omega)]; simp
    | succ j =>
      rw [hq, List.length_cons] at hj
      have := h5 j (by omega)
      rw [show fin + (j + 1) = fin + 1 + j by omega, this]
      rfl
  · rw [hq]
    intro c hc
    rcases List.mem_cons.1 hc with rfl | hc
    · exact hb
    · exact h6 c hc

/-- Unescaping in place. -/
theorem unquote_ok {size : Nat} : ∀ (f : Nat) {l : Bytes} {mem : Mem} {line fin : Nat}, CStr mem line l →
    line + l.length < size → fin ≤ line → l.length < f → ∃ mem' skip,
      unquote size f mem line fin = .ok (mem', line + skip, fin + (quotedValue l).1.length) ∧
      Unquoted mem line fin l mem' skip
  | 0, _, _, _, _, _, _, _, hf => by omega
  | f + 1, [], mem, line, fin, h, hs, hle, hf => by
    refine ⟨mem, 0, ?_, ?_⟩
    · rw [unquote, read_ok (by simpa using hs), Res.ok_bind, if_pos (show mem line = 0 from h)]
      rfl
    · exact ⟨rfl, by simpa [quotedValue] using hle, fun _ _ => rfl, h, fun j hj => absurd hj (by simp [quotedValue]), by
        simp [quotedValue]⟩
  | f + 1, b :: r, mem, line, fin, h, hs, hle, hf => by
    simp only [List.length_cons] at hs hf
    rw [unquote, read_ok (by omega), Res.ok_bind, h.1, if_neg h.2.1]
    by_cases hb : b = dquote
    · subst hb
      rw [if_pos rfl, read_ok (by omega), Res.ok_bind, h.2.2.at]
      by_cases hr : r.headD 0 = dquote
      · obtain ⟨r', rfl⟩ : ∃ r', r = dquote :: r' := by
          cases r with
          | nil => exact absurd hr (by decide)
          | cons c r' => exact ⟨r', by rw [show c = dquote from hr]⟩
        simp only [List.length_cons] at hs hf
        have hc : CStr (Function.update mem fin dquote) (line + 2) r' :=
          h.2.2.2.2.congr fun j h1 _ => Function.update_of_ne (by omega) _ _
        obtain ⟨mem', skip, e, u⟩ := unquote_ok (size := size) f hc (fin := fin + 1) (by omega) (by omega) (by omega)
        refine ⟨mem', 2 + skip, ?_, u.step (by simp) (quotedValue_twice r') (by decide)⟩
        rw [if_neg (by simp), write, if_pos (by omega), Res.ok_bind, List.headD_cons, e,
          quotedValue_twice, List.length_cons]
        congr 3 <;> omega
      · refine ⟨mem, 1, ?_, ?_⟩
        · rw [if_pos hr, quotedValue_once hr]
          rfl
        · have q := quotedValue_once hr
          refine ⟨?_, ?_, fun _ _ => rfl, ?_, ?_, ?_⟩
          · rw [q]; simp; omega
          · rw [q]; simp; omega
          · rw [q]; exact h.2.2
          · intro j hj
            rw [q] at hj
            simp at hj
          · rw [q]; simp
    · have hc : CStr (Function.update mem fin b) (line + 1) r :=
        h.2.2.congr fun j h1 _ => Function.update_of_ne (by omega) _ _
      obtain ⟨mem', skip, e, u⟩ := unquote_ok (size := size) f hc (fin := fin + 1) (by omega) (by omega) (by omega)
      refine ⟨mem', 1 + skip, ?_, u.step (by simp) (quotedValue_other hb r) h.2.1⟩
      rw [if_neg hb, write, if_pos (by omega), Res.ok_bind, e, quotedValue_other hb, List.length_cons]
      congr 3 <;> omega

theorem trimRight_snoc (l : Bytes) (b : Byte) :
    trimRight (l ++ [b]) = if isSpace b = true then trimRight l else l ++ [b] := by
  unfold trimRight
  rw [List.reverse_append, List.reverse_singleton, List.singleton_append, List.dropWhile_cons]
  split <;> simp

/-- Trailing white space is skipped, or a byte from 128 to 254 is met. -/
theorem trimEnd_ok {signed : Bool} {size : Nat} {mem : Mem} {start : Nat} (l : Bytes) :
    (∀ j (h : j < l.length), mem (start + j) = l[j]) → comma ∉ l → start + l.length < size →
    trimEnd signed size mem start (start + l.length) =
      if signed = true ∧ ∃ b ∈ (trimRight l).getLast?, 128 ≤ b.val ∧ b.val < 255 then .ub
      else .ok (start + (trimRight l).length) := by
  induction l using List.reverseRecOn with
  | nil =>
    intro _ _ _
    have e : trimRight [] = [] := rfl
    rw [e]
    simp only [List.length_nil, Nat.add_zero, List.getLast?_nil, Option.not_mem_none, false_and,
      exists_false, and_false, if_false]
    cases start with
    | zero => rfl
    | succ n => simp [trimEnd]
  | append_singleton l b ih =>
    intro hm hc hs
    rw [List.length_append, List.length_singleton] at hs ⊢
    have hb : mem (start + l.length) = b := by
      rw [hm l.length (by simp)]
      simp
    have hbc : b ≠ comma := fun e => hc (by simp [e])
    rw [← Nat.add_assoc, trimEnd, if_pos (by omega), read_ok (by omega), Res.ok_bind, hb, trimRight_snoc]
    by_cases hsp : isSpace b = true
    · have h128 : ¬ (128 ≤ b.val ∧ b.val < 255) := space_ascii b hsp
      rw [if_pos hsp, isspaceChar, if_neg (by simp only [h128, decide_false, Bool.and_false]; decide), Res.ok_bind, if_neg (by simp [hsp, hbc])]
      refine ih (fun j hj => ?_) (fun h => hc (List.mem_append_left _ h)) (by omega)
      rw [hm j (by rw [List.length_append]; omega), List.getElem_append_left hj]
    · rw [if_neg hsp]
      by_cases h1 : signed = true ∧ 128 ≤ b.val ∧ b.val < 255
      · rw [if_pos ⟨h1.1, b, by simp, h1.2⟩, isspaceChar, if_pos (by simp [h1]), Res.ub_bind]
      · rw [if_neg (by
          rintro ⟨hs, c, hc, h2⟩
          simp at hc
          exact h1 ⟨hs, hc ▸ h2⟩), isspaceChar, if_neg (by
          simp only [Bool.and_eq_true, decide_eq_true_eq]; exact h1), Res.ok_bind, if_pos (by simp [hsp])]
        simp [Nat.add_assoc]

/-! ### The loop -/

theorem CStr.of {mem : Mem} : ∀ {v : Bytes} {i : Nat}, (∀ j (h : j < v.length), mem (i + j) = v[j]) →
    (∀ b ∈ v, b ≠ 0) → mem (i + v.length) = 0 → CStr mem i v
  | [], _, _, _, h0 => h0
  | b :: r, i, h, hne, h0 => by
    refine ⟨h 0 (by simp), hne b (by simp), CStr.of (fun j hj => ?_) (fun c hc => hne c (by simp [hc])) ?_⟩
    · have := h (j + 1) (by simp; omega)
      rw [show i + 1 + j = i + (j + 1) by omega, this]
      rfl
    · rw [show i + 1 + r.length = i + (b :: r).length by simp; omega]
      exact h0

theorem CStr.get {mem : Mem} : ∀ {l : Bytes} {i : Nat}, CStr mem i l → ∀ j (h : j < l.length),
    mem (i + j) = l[j]
  | b :: r, i, h, 0, _ => h.1
  | b :: r, i, h, j + 1, hj => by
    have := CStr.get h.2.2 j (by simpa using hj)
    rw [show i + (j + 1) = i + 1 + j by omega, this]
    rfl

/-- The columns found so far, below `bound`. -/
def Held (mem : Mem) (bound : Nat) (cols : List Nat) (vals : List Bytes) : Prop :=
  List.Forall₂ (fun s v => CStr mem s v ∧ s + v.length < bound) cols vals

theorem Held.mono {mem mem' : Mem} {b b' : Nat} {cols : List Nat} {vals : List Bytes}
    (h : Held mem b cols vals) (hb : b ≤ b') (hm : ∀ j < b, mem' j = mem j) : Held mem' b' cols vals :=
  List.Forall₂.imp (fun s v hs => ⟨hs.1.congr fun j _ h2 => hm j (by omega), by omega⟩) h

/-- The end of an iteration. -/
theorem finish {signed : Bool} {size eol f : Nat} {mem : Mem} {start line fin : Nat} {cols : List Nat}
    {rest : Bytes} (heol : eol < size) (hr : CStr mem line rest) (hl : line + rest.length = eol)
    (hc : rest = [] ∨ rest.head? = some comma) (hf : fin ≤ line) :
    (do
      let c ← read size mem line
      let more := decide (c = comma) && decide (line + 1 = eol)
      let mem ← write size mem fin 0
      let d ← read size mem line
      if ¬ (d = 0 ∨ d = comma) then Res.crash
      else if line + 1 > size then .ub
      else splitLoopC signed size eol f mem (line + 1) (cols ++ start :: if more then [fin] else [])) =
    splitLoopC signed size eol f (Function.update mem fin 0) (line + 1)
      (cols ++ start :: if rest = [comma] then [fin] else []) := by
  rw [read_ok (by omega), Res.ok_bind, write, if_pos (by omega), Res.ok_bind, read_ok (by omega), Res.ok_bind]
  have hm : mem line = rest.headD 0 := hr.at
  have hd : Function.update mem fin 0 line = 0 ∨ Function.update mem fin 0 line = comma := by
    by_cases e : line = fin
    · left; rw [e]; simp
    · rw [Function.update_of_ne e, hm]
      rcases hc with rfl | hc
      · left; rfl
      · right; rw [List.headD_eq_head?_getD, hc]; rfl
  rw [if_neg (not_not.2 hd), if_neg (by omega)]
  congr 3
  have : (decide (mem line = comma) && decide (line + 1 = eol)) = decide (rest = [comma]) := by
    rw [hm, ← Bool.decide_and, decide_eq_decide]
    constructor
    · rintro ⟨h1, h2⟩
      cases rest with
      | nil => exact absurd h1 (by decide)
      | cons b r =>
        have : r = [] := List.length_eq_zero_iff.1 (by simp at hl; omega)
        rw [this, show b = comma from h1]
    · rintro rfl
      simp at hl
      exact ⟨rfl, by omega⟩
  rw [this]
  simp

theorem columnsLoop_unquoted {fuel : Nat} {text : Bytes} (ht : text ≠ [])
    (hq : (text.dropWhile fun b => isSpace b && b != comma).headD 0 ≠ dquote) :
    columnsLoop (fuel + 1) text =
      (false, trimRight ((text.dropWhile fun b => isSpace b && b != comma).takeWhile (· != comma))) ::
      ((if (text.dropWhile fun b => isSpace b && b != comma).dropWhile (· != comma) = [comma]
        then [(false, [])] else []) ++ columnsLoop fuel
          ((text.dropWhile fun b => isSpace b && b != comma).dropWhile (· != comma)).tail) := by
  rw [columnsLoop, if_neg ht]
  cases hd : text.dropWhile fun b => isSpace b && b != comma with
  | nil => rfl
  | cons b r =>
    rw [hd] at hq
    simp only [if_neg (show b ≠ dquote from hq)]

theorem columnsLoop_quoted {fuel : Nat} {text r : Bytes} (ht : text ≠ [])
    (hq : (text.dropWhile fun b => isSpace b && b != comma) = dquote :: r) :
    columnsLoop (fuel + 1) text = (true, (quotedValue r).1) ::
      ((if (quotedValue r).2.dropWhile (· != comma) = [comma] then [(false, [])] else []) ++
        columnsLoop fuel ((quotedValue r).2.dropWhile (· != comma)).tail) := by
  rw [columnsLoop, if_neg ht, hq]
  simp

theorem head_dropWhile_comma (l : Bytes) : l.dropWhile (· != comma) = [] ∨
    (l.dropWhile (· != comma)).head? = some comma := by
  induction l with
  | nil => left; rfl
  | cons b r ih =>
    by_cases hb : b = comma
    · right; simp [hb]
    · rw [List.dropWhile_cons_of_pos (by simpa using hb)]
      exact ih

theorem trimRight_head {b : Byte} (hb : isSpace b = false) (x : Bytes) :
    (trimRight (b :: x)).head? = some b := by
  induction x using List.reverseRecOn with
  | nil =>
    have := trimRight_snoc [] b
    rw [List.nil_append, if_neg (by simp [hb])] at this
    rw [this]
    rfl
  | append_singleton x c ih =>
    rw [← List.cons_append, trimRight_snoc]
    split
    · exact ih
    · rfl

theorem takeWhile_prefix {l : Bytes} {p : Byte → Bool} : l.takeWhile p ++ l.dropWhile p = l :=
  List.takeWhile_append_dropWhile

theorem trimRight_prefix (l : Bytes) : trimRight l <+: l := by
  induction l using List.reverseRecOn with
  | nil => exact List.prefix_rfl
  | append_singleton l b ih =>
    rw [trimRight_snoc]
    split
    · exact ih.trans (List.prefix_append _ _)
    · exact List.prefix_rfl

/-- What the loop does: undefined behaviour if `bad`, else the columns `vals`. -/
def Outcome (bad : Prop) (r : Res (Mem × List Nat)) (eol : Nat) (vals : List Bytes) : Prop :=
  (bad → r = .ub) ∧ (¬ bad → ∃ mem' cols', r = .ok (mem', cols') ∧ Held mem' (eol + 1) cols' vals)

theorem Outcome.cons {signed : Prop} {first : Bool × Bytes} {more : Prop} [Decidable more]
    {cs : List (Bool × Bytes)} {r : Res (Mem × List Nat)} {eol : Nat} {vals : List Bytes}
    (hf : ¬ (signed ∧ Foreign first))
    (h : Outcome (signed ∧ ∃ c ∈ cs, Foreign c) r eol
      ((vals ++ first.2 :: if more then [[]] else []) ++ cs.map Prod.snd)) :
    Outcome (signed ∧ ∃ c ∈ first :: ((if more then [(false, [])] else []) ++ cs), Foreign c) r eol
      (vals ++ (first :: ((if more then [(false, [])] else []) ++ cs)).map Prod.snd) := by
  have h0 : ¬ Foreign (false, []) := by rintro ⟨-, ⟨b, hb, -⟩ | ⟨b, hb, -⟩⟩ <;> simp at hb
  have e : (signed ∧ ∃ c ∈ first :: ((if more then [(false, [])] else []) ++ cs), Foreign c) ↔
      (signed ∧ ∃ c ∈ cs, Foreign c) := by
    constructor
    · rintro ⟨hs, c, hc, hF⟩
      rcases List.mem_cons.1 hc with rfl | hc
      · exact absurd ⟨hs, hF⟩ hf
      rcases List.mem_append.1 hc with hc | hc
      · split at hc
        · rw [List.mem_singleton] at hc
          exact absurd (hc ▸ hF) h0
        · cases hc
      · exact ⟨hs, c, hc, hF⟩
    · rintro ⟨hs, c, hc, hF⟩
      exact ⟨hs, c, List.mem_cons_of_mem _ (List.mem_append_right _ hc), hF⟩
  have e2 : vals ++ (first :: ((if more then [(false, [])] else []) ++ cs)).map Prod.snd =
      (vals ++ first.2 :: if more then [[]] else []) ++ cs.map Prod.snd := by
    split <;> simp
  unfold Outcome at h ⊢
  rw [e, e2]
  exact h

/-- The columns after an iteration. -/
theorem held_next {mem mem' : Mem} {b start line : Nat} {cols : List Nat} {vals : List Bytes} {v : Bytes}
    {more : Prop} [Decidable more] (held : Held mem b cols vals) (hb : b ≤ start)
    (hm : ∀ j < start, mem' j = mem j) (hv : ∀ j (h : j < v.length), mem' (start + j) = v[j])
    (h0 : ∀ b ∈ v, b ≠ 0) (hl : start + v.length ≤ line) :
    Held (Function.update mem' (start + v.length) 0) (line + 1)
      (cols ++ start :: if more then [start + v.length] else [])
      (vals ++ v :: if more then [[]] else []) := by
  refine List.rel_append (held.mono (by omega) fun j hj => ?_) (.cons ⟨?_, by omega⟩ ?_)
  · rw [Function.update_of_ne (by omega), hm j (by omega)]
  · refine CStr.of (fun j hj => ?_) h0 (by simp)
    rw [Function.update_of_ne (by omega), hv j hj]
  · split
    · exact .cons ⟨by simp [CStr], by simp; omega⟩ .nil
    · exact .nil

/-- The loop finds the columns, or `isspace` is asked about a byte from 128 to 254. -/
theorem loop_ok {signed : Bool} {size eol : Nat} (heol : eol < size) : ∀ (f : Nat) {fuel : Nat}
    {text : Bytes} {mem : Mem} {line : Nat} {cols : List Nat} {vals : List Bytes},
    text.length < fuel → text.length < f → line ≤ eol + 1 → (text = [] → eol ≤ line) →
    (text ≠ [] → CStr mem line text ∧ line + text.length = eol) → Held mem line cols vals →
    Outcome (signed = true ∧ ∃ c ∈ columnsLoop fuel text, Foreign c)
      (splitLoopC signed size eol f mem line cols) eol (vals ++ (columnsLoop fuel text).map Prod.snd)
  | 0, _, _, _, _, _, _, _, hf, _, _, _, _ => by omega
  | f + 1, 0, _, _, _, _, _, hfu, _, _, _, _, _ => by omega
  | f + 1, fuel + 1, text, mem, line, cols, vals, hfu, hf, hline, hnil, hcons, held => by
    by_cases ht : text = []
    · subst ht
      refine ⟨by simp [columnsLoop], fun _ => ⟨mem, cols, ?_, ?_⟩⟩
      · rw [splitLoopC, if_neg (by have := hnil rfl; omega)]
      · simpa [columnsLoop] using held.mono hline fun _ _ => rfl
    obtain ⟨hstr, hlen⟩ := hcons ht
    have hpos : 0 < text.length := List.length_pos_of_ne_nil ht
    rw [splitLoopC, if_pos (by omega), skipSpace_ok hstr (by omega) (by omega)]
    set p : Byte → Bool := fun b => isSpace b && b != comma with hp
    set t := text.dropWhile p with htd
    set k := (text.takeWhile p).length with hk
    have hsplit : text.takeWhile p ++ t = text := takeWhile_prefix
    have hkl : k + t.length = text.length := by rw [← hsplit, List.length_append]
    have hts : CStr mem (line + k) t := CStr.drop (by rw [hsplit]; exact hstr)
    by_cases h128 : signed = true ∧ ∃ b ∈ t.head?, 128 ≤ b.val ∧ b.val < 255
    · -- the first byte
      rw [if_pos h128, Res.ub_bind]
      refine ⟨fun _ => rfl, fun h => absurd ?_ h⟩
      obtain ⟨hs, b, hb, h1⟩ := h128
      obtain ⟨r, hr⟩ : ∃ r, t = b :: r := by
        cases hc : t with
        | nil => rw [hc] at hb; simp at hb
        | cons c r =>
          rw [hc] at hb
          simp at hb
          exact ⟨r, by rw [hb]⟩
      have hbq : b ≠ dquote := by rintro rfl; exact absurd h1 (by decide)
      have hbc : b ≠ comma := by rintro rfl; exact absurd h1 (by decide)
      have hbs : isSpace b = false := by
        by_contra h
        exact space_ascii b (by simpa using h) h1
      refine ⟨hs, (false, trimRight (t.takeWhile (· != comma))), ?_, rfl, .inl ⟨b, ?_, h1⟩⟩
      · rw [columnsLoop_unquoted ht (by rw [← hp, ← htd, hr]; exact hbq)]
        exact List.mem_cons_self
      · rw [hr, List.takeWhile_cons_of_pos (by simpa using hbc)]
        exact trimRight_head hbs _
    rw [if_neg h128, Res.ok_bind, read_ok (by omega), Res.ok_bind, hts.at]
    by_cases hq : t.headD 0 = dquote
    · -- quoted
      obtain ⟨r, hr⟩ : ∃ r, t = dquote :: r := by
        cases hc : t with
        | nil => rw [hc] at hq; exact absurd hq (by decide)
        | cons c r => rw [hc] at hq; exact ⟨r, by rw [show c = dquote from hq]⟩
      rw [hr] at hts hkl
      simp only [List.length_cons] at hkl
      obtain ⟨mem', skip, e, u⟩ := unquote_ok (size := size) (size + 1) hts.2.2 (fin := line + k + 1)
        (by omega) le_rfl (by omega)
      have hqr := u.rest
      have hql := u.len
      obtain ⟨o, ho, eo⟩ := strchr_ok (size := size) (f := size + 1) (eol := eol) hqr (by omega) heol
        (by omega)
      rw [if_pos hq, e]
      simp only [Res.ok_bind, ho, eo]
      set q := (quotedValue r).2 with hqd
      have hsp : q.takeWhile (· != comma) ++ q.dropWhile (· != comma) = q := takeWhile_prefix
      have hspl : (q.takeWhile (· != comma)).length + (q.dropWhile (· != comma)).length = q.length := by
        rw [← List.length_append, hsp]
      have hrest : CStr mem' (line + k + 1 + skip + (q.takeWhile (· != comma)).length)
          (q.dropWhile (· != comma)) := CStr.drop (by rw [hsp]; exact hqr)
      have hle := u.le
      rw [finish heol hrest (by omega) (head_dropWhile_comma q) (by omega),
        columnsLoop_quoted ht (by rw [← hp, ← htd, hr]), ← hqd]
      refine Outcome.cons (by rintro ⟨-, h, -⟩; cases h) ?_
      have htl : (q.dropWhile (· != comma)).tail.length = (q.dropWhile (· != comma)).length - 1 :=
        List.length_tail
      refine loop_ok heol f (by omega) (by omega) (by omega) (fun h => ?_) (fun h => ⟨?_, ?_⟩) ?_
      · rw [h] at htl
        simp at htl
        omega
      · cases hc : q.dropWhile (· != comma) with
        | nil => rw [hc] at h; exact absurd rfl h
        | cons b x =>
          rw [hc] at hrest
          exact hrest.2.2.congr fun j h1 _ => Function.update_of_ne (by omega) _ _
      · have : (q.dropWhile (· != comma)).tail.length ≠ 0 := fun h' => h (List.length_eq_zero_iff.1 h')
        omega
      · exact held_next held (by omega) u.below u.value u.nonzero (by omega)
    · -- not quoted
      have hsp : t.takeWhile (· != comma) ++ t.dropWhile (· != comma) = t := takeWhile_prefix
      have hspl : (t.takeWhile (· != comma)).length + (t.dropWhile (· != comma)).length = t.length := by
        rw [← List.length_append, hsp]
      obtain ⟨o, ho, eo⟩ := strchr_ok (size := size) (f := size + 1) (eol := eol) hts (by omega) heol
        (by omega)
      have hrest : CStr mem (line + k + (t.takeWhile (· != comma)).length)
          (t.dropWhile (· != comma)) := CStr.drop (by rw [hsp]; exact hts)
      have hget : ∀ j (h : j < (t.takeWhile (· != comma)).length),
          mem (line + k + j) = (t.takeWhile (· != comma))[j] := by
        intro j hj
        rw [hts.get j (by omega)]
        exact ((List.takeWhile_prefix _).getElem hj).symm
      rw [if_neg hq, ho, Res.ok_bind, eo, trimEnd_ok _ hget (by
        intro h
        have := List.mem_takeWhile_imp h
        simp at this) (by omega), columnsLoop_unquoted ht hq, ← hp, ← htd]
      set v := trimRight (t.takeWhile (· != comma)) with hv
      have hpre : v <+: t.takeWhile (· != comma) := trimRight_prefix _
      by_cases hlast : signed = true ∧ ∃ b ∈ v.getLast?, 128 ≤ b.val ∧ b.val < 255
      · rw [if_pos hlast, Res.ub_bind]
        exact ⟨fun _ => rfl, fun h => absurd ⟨hlast.1, _, List.mem_cons_self, rfl, .inr hlast.2⟩ h⟩
      rw [if_neg hlast]
      simp only [Res.ok_bind]
      rw [finish heol hrest (by omega) (head_dropWhile_comma t) (by have := hpre.length_le; omega)]
      refine Outcome.cons ?_ ?_
      · rintro ⟨hs, -, hh | hh⟩
        · obtain ⟨b, hb, h1⟩ := hh
          refine h128 ⟨hs, b, ?_, h1⟩
          obtain ⟨x, hx⟩ := hpre
          rw [← hsp, ← hx]
          cases hvv : v with
          | nil => rw [hvv] at hb; simp at hb
          | cons c y => rw [hvv] at hb; simpa using hb
        · exact hlast ⟨hs, hh⟩
      have htl : (t.dropWhile (· != comma)).tail.length = (t.dropWhile (· != comma)).length - 1 :=
        List.length_tail
      have hvl := hpre.length_le
      refine loop_ok heol f (by omega) (by omega) (by omega) (fun h => ?_) (fun h => ⟨?_, ?_⟩) ?_
      · rw [h] at htl
        simp at htl
        omega
      · cases hc : t.dropWhile (· != comma) with
        | nil => rw [hc] at h; exact absurd rfl h
        | cons b x =>
          rw [hc] at hrest
          exact hrest.2.2.congr fun j h1 _ => Function.update_of_ne (by omega) _ _
      · have : (t.dropWhile (· != comma)).tail.length ≠ 0 := fun h' => h (List.length_eq_zero_iff.1 h')
        omega
      · refine held_next held (by omega) (fun _ _ => rfl) (fun j hj => ?_) (fun b hb => ?_) (by omega)
        · rw [hget j (by omega)]
          exact (hpre.getElem hj).symm
        · exact hts.ne b ((List.takeWhile_prefix _).subset (hpre.subset hb))

theorem readStrings_ok {size : Nat} {mem : Mem} {bound : Nat} (hb : bound ≤ size) : ∀ {cols : List Nat}
    {vals : List Bytes}, Held mem bound cols vals → readStrings size mem cols = .ok vals
  | _, _, .nil => rfl
  | _, _, .cons (a := i) (b := v) ⟨h1, h2⟩ h => by
    rw [readStrings, readString_ok h1 (by omega) (by omega), Res.ok_bind, readStrings_ok hb h, Res.ok_bind]

open scoped Classical in
/-- C135: where `char` is unsigned, or no column without quotes begins or ends with a byte from 128 to 254,
`SplitCsvLine` returns the columns; no access leaves the buffer and the assertion holds.  Otherwise the
behaviour is undefined. -/
theorem C135_split (signed : Bool) (line : Bytes) :
    splitCsvLineC signed line =
      if signed = true ∧ ∃ c ∈ columns line, Foreign c then .ub else .ok (splitCsvLine line) := by
  have hl : (cString line).length ≤ line.length := (List.takeWhile_prefix _).length_le
  have hz : ∀ b ∈ cString line, b ≠ 0 := fun b hb => by simpa using List.mem_takeWhile_imp hb
  have hstr : CStr (fun i => (cString line).getD i 0) 0 (cString line) := by
    refine CStr.of (fun j hj => ?_) hz (by simp)
    simp [hj]
  have hloop := loop_ok (signed := signed) (size := line.length + 1) (eol := (cString line).length)
    (by omega) (line.length + 1 + 1) (fuel := (cString line).length + 1) (text := cString line)
    (mem := fun i => (cString line).getD i 0) (line := 0) (cols := []) (vals := []) (by omega) (by omega)
    (by omega) (fun h => by rw [h]; simp) (fun _ => ⟨hstr, by omega⟩) .nil
  unfold splitCsvLineC
  dsimp only
  rw [strlen_ok hstr (by omega) (by omega), Res.ok_bind, Nat.zero_add]
  split
  · next h => rw [hloop.1 h, Res.ub_bind]
  · next h =>
    obtain ⟨mem', cols', e, held⟩ := hloop.2 h
    rw [e, Res.ok_bind, readStrings_ok (by omega) held, List.nil_append, columnsLoop_snd]
    rfl

/-! ### Lines that are written by the library -/

theorem columnsLoop_ascii : ∀ (fuel : Nat) {text : Bytes}, (∀ b ∈ text, b.val < 128) →
    ∀ c ∈ columnsLoop fuel text, ¬ Foreign c
  | 0, _, _, c, hc => by cases hc
  | fuel + 1, text, ha, c, hc => by
    have sub : ∀ {p : Byte → Bool} {l : Bytes}, (∀ b ∈ l, b.val < 128) → ∀ b ∈ l.dropWhile p, b.val < 128 :=
      fun h b hb => h b ((List.dropWhile_suffix _).subset hb)
    have h0 : ¬ Foreign (false, []) := by rintro ⟨-, ⟨b, hb, -⟩ | ⟨b, hb, -⟩⟩ <;> simp at hb
    by_cases ht : text = []
    · rw [columnsLoop, if_pos ht] at hc; cases hc
    by_cases hq : (text.dropWhile fun b => isSpace b && b != comma).headD 0 = dquote
    · obtain ⟨r, hr⟩ : ∃ r, (text.dropWhile fun b => isSpace b && b != comma) = dquote :: r := by
        cases hd : text.dropWhile fun b => isSpace b && b != comma with
        | nil => rw [hd] at hq; exact absurd hq (by decide)
        | cons c r => rw [hd] at hq; exact ⟨r, by rw [show c = dquote from hq]⟩
      rw [columnsLoop_quoted ht hr] at hc
      have hr' : ∀ b ∈ r, b.val < 128 := fun b hb => sub ha b (by rw [hr]; exact List.mem_cons_of_mem _ hb)
      have hq2 : ∀ b ∈ (quotedValue r).2, b.val < 128 := fun b hb => hr' b (quotedValue_rest r hb)
      rcases List.mem_cons.1 hc with rfl | hc
      · rintro ⟨h, -⟩; cases h
      rcases List.mem_append.1 hc with hc | hc
      · split at hc
        · rw [List.mem_singleton] at hc; exact hc ▸ h0
        · cases hc
      · exact columnsLoop_ascii fuel (fun b hb => sub hq2 b (List.mem_of_mem_tail hb)) c hc
    · rw [columnsLoop_unquoted ht hq] at hc
      rcases List.mem_cons.1 hc with rfl | hc
      · have hv : ∀ b ∈ trimRight ((text.dropWhile fun b => isSpace b && b != comma).takeWhile (· != comma)),
            b.val < 128 := fun b hb =>
          sub ha b ((List.takeWhile_prefix _).subset ((trimRight_prefix _).subset hb))
        rintro ⟨-, ⟨b, hb, h1⟩ | ⟨b, hb, h1⟩⟩
        · exact absurd (hv b (List.mem_of_mem_head? hb)) (by omega)
        · exact absurd (hv b (List.mem_of_getLast? hb)) (by omega)
      rcases List.mem_append.1 hc with hc | hc
      · split at hc
        · rw [List.mem_singleton] at hc; exact hc ▸ h0
        · cases hc
      · exact columnsLoop_ascii fuel (fun b hb => sub (sub ha) b (List.mem_of_mem_tail hb)) c hc
where
  quotedValue_rest : ∀ (r : Bytes) {b : Byte}, b ∈ (quotedValue r).2 → b ∈ r := by
    intro r
    induction hn : r.length using Nat.strong_induction_on generalizing r with
    | _ n ih =>
      intro b hb
      cases r with
      | nil => simp [quotedValue] at hb
      | cons c r =>
        by_cases hc : c = dquote
        · subst hc
          by_cases hr : r.headD 0 = dquote
          · obtain ⟨r', rfl⟩ : ∃ r', r = dquote :: r' := by
              cases r with
              | nil => exact absurd hr (by decide)
              | cons c r' => exact ⟨r', by rw [show c = dquote from hr]⟩
            rw [quotedValue_twice] at hb
            have := ih r'.length (by rw [← hn]; simp) r' rfl hb
            simp [this]
          · rw [quotedValue_once hr] at hb
            exact List.mem_cons_of_mem _ hb
        · rw [quotedValue_other hc] at hb
          exact List.mem_cons_of_mem _ (ih r.length (by rw [← hn]; simp) r rfl hb)

/-- A quoted column, then the rest. -/
theorem columnsLoop_escaped (f rest : Bytes) (fuel : Nat) :
    columnsLoop (fuel + 1) (escapeForCsv f ++ comma :: rest) =
      (true, f) :: ((if rest = [] then [(false, [])] else []) ++ columnsLoop fuel rest) := by
  have e : escapeForCsv f ++ comma :: rest = dquote :: (escapeBody f ++ dquote :: comma :: rest) := by
    simp [escapeForCsv]
  have dq : (isSpace dquote && dquote != comma) = false := by decide
  rw [e, columnsLoop_quoted (by simp) (r := escapeBody f ++ dquote :: comma :: rest)
    (List.dropWhile_cons_of_neg (by simp [dq])), quotedValue_escape f (comma :: rest) (by simp [comma, dquote])]
  simp

theorem columnsLoop_last (f : Bytes) (fuel : Nat) :
    columnsLoop (fuel + 1) (escapeForCsv f) = [(true, f)] := by
  have e : escapeForCsv f = dquote :: (escapeBody f ++ dquote :: []) := by simp [escapeForCsv]
  have dq : (isSpace dquote && dquote != comma) = false := by decide
  rw [e, columnsLoop_quoted (by simp) (r := escapeBody f ++ dquote :: [])
    (List.dropWhile_cons_of_neg (by simp [dq])), quotedValue_escape f [] (by simp)]
  cases fuel <;> simp [columnsLoop]

theorem columnsLoop_row : ∀ (fields : List Bytes) (fuel : Nat), ∀ c ∈ columnsLoop fuel (csvRow fields),
    ¬ Foreign c
  | _, 0, c, hc => by cases hc
  | [], fuel + 1, c, hc => by simp [columnsLoop, csvRow, List.intercalate] at hc
  | [f], fuel + 1, c, hc => by
    have e : csvRow [f] = escapeForCsv f := by simp [csvRow, List.intercalate]
    rw [e, columnsLoop_last, List.mem_singleton] at hc
    subst hc
    rintro ⟨h, -⟩; cases h
  | f :: g :: fs, fuel + 1, c, hc => by
    obtain ⟨t, ht⟩ := csvRow_ne_nil g fs
    rw [csvRow_cons, columnsLoop_escaped, if_neg (by rw [ht]; simp), List.nil_append] at hc
    rcases List.mem_cons.1 hc with rfl | hc
    · rintro ⟨h, -⟩; cases h
    · exact columnsLoop_row (g :: fs) fuel c hc

/-- Rows of escaped fields are read back, whatever bytes but NUL the fields contain. -/
theorem C135_written (signed : Bool) (fields : List Bytes) (h : ∀ f ∈ fields, (0 : Byte) ∉ f) :
    splitCsvLineC signed (List.intercalate [comma] (fields.map escapeForCsv)) = .ok fields := by
  classical
  have h0 : (0 : Byte) ∉ csvRow fields := by
    intro hb
    rcases mem_csvRow hb with h' | h' | ⟨f, hf, h'⟩
    · exact absurd h' (by decide)
    · exact absurd h' (by decide)
    · exact h f hf h'
  rw [C135_split, if_neg, C35_csv_round_trip fields h]
  rintro ⟨-, c, hc, hF⟩
  unfold columns at hc
  rw [← csvRow, cString_eq h0] at hc
  exact columnsLoop_row fields _ c hc hF

/-- Lines of the client's file are read back, whatever bytes but NUL the identifier contains. -/
theorem C135_client_line (signed : Bool) (a : Bytes) (ha : (0 : Byte) ∉ a) (v : Int) (hv : 0 ≤ v) :
    splitCsvLineC signed (escapeForCsv a ++ [comma] ++ intToDec v) = .ok [a, intToDec v] := by
  classical
  rw [C135_split, if_neg, split_client_row a ha v hv]
  rintro ⟨-, c, hc, hF⟩
  have hd : ∀ b ∈ intToDec v, b.val < 128 ∧ b ≠ 0 := by
    intro b hb
    rw [intToDec, if_neg (by omega)] at hb
    obtain ⟨h1, h2⟩ := (natToDec_digits v.natAbs).1 b hb
    exact ⟨by omega, fun h => by rw [h] at h1; exact absurd h1 (by decide)⟩
  have h0 : (0 : Byte) ∉ escapeForCsv a ++ comma :: intToDec v := by
    intro h
    rcases List.mem_append.1 h with h | h
    · have e : escapeForCsv a = csvRow [a] := by simp [csvRow, List.intercalate]
      rcases mem_csvRow (e ▸ h) with h | h | ⟨f, hf, h⟩
      · exact absurd h (by decide)
      · exact absurd h (by decide)
      · rw [List.mem_singleton] at hf; exact ha (hf ▸ h)
    · rcases List.mem_cons.1 h with h | h
      · exact absurd h (by decide)
      · exact (hd _ h).2 rfl
  have hne : intToDec v ≠ [] := by
    rw [intToDec, if_neg (by omega)]
    exact (natToDec_digits v.natAbs).2.1
  unfold columns at hc
  rw [List.append_assoc, List.singleton_append, cString_eq h0] at hc
  generalize (escapeForCsv a ++ comma :: intToDec v).length = n at hc
  rw [columnsLoop_escaped, if_neg hne, List.nil_append] at hc
  rcases List.mem_cons.1 hc with rfl | hc
  · obtain ⟨h, -⟩ := hF; cases h
  · exact columnsLoop_ascii n (fun b hb => (hd b hb).1) c hc hF

/-- Finding: a letter with an accent at the beginning of a column without quotes (two bytes of UTF-8) is
undefined behaviour where `char` is signed; in quotes it is not. -/
theorem C135_signed_fails : splitCsvLineC true ([195, 169] ++ str ",1") = .ub ∧
    splitCsvLineC false ([195, 169] ++ str ",1") = .ok [[195, 169], str "1"] ∧
    splitCsvLineC true (str "\"" ++ [195, 169] ++ str "\",1") = .ok [[195, 169], str "1"] := by
  decide +kernel

example : splitCsvLineC true (str " a \"b , \"x\"\"y\" z,\"\",") = .ok [str "a \"b", str "x\"y", [], []] := by
  decide +kernel

end PJC.CsvBuffer
