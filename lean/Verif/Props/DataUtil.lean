import Verif.Model.DataUtil
import Mathlib.Data.List.SplitOn
import Mathlib.Data.Nat.Digits.Lemmas
import Mathlib.Algebra.BigOperators.Group.List.Basic
import Mathlib.Data.List.TakeWhile
import Mathlib.Tactic.Ring
import Mathlib.Tactic.Linarith
/-
C35-C38: the CSV format, the dataset files and the generated datasets.
-/
namespace PJC.Data

/-! ### C35 -/

theorem quotedValue_escape (f : Bytes) (r : Bytes) (hr : r.head? ≠ some dquote) :
    quotedValue (escapeBody f ++ dquote :: r) = (f, r) := by
  induction f with
  | nil =>
    cases r with
    | nil => simp [escapeBody, quotedValue]
    | cons c r =>
      have : c ≠ dquote := by simpa using hr
      simp [escapeBody, quotedValue, this]
  | cons b f ih =>
    by_cases hb : b = dquote
    · subst hb
      simp only [escapeBody, if_true, List.cons_append, quotedValue, ih]
    · have hs : ∃ c t, escapeBody f ++ dquote :: r = c :: t := by
        cases h : escapeBody f ++ dquote :: r with
        | nil => simp at h
        | cons c t => exact ⟨c, t, rfl⟩
      obtain ⟨c, t, hs⟩ := hs
      simp only [escapeBody, hb, if_false, List.cons_append, hs, quotedValue]
      rw [← hs, ih]

/-- The fields of a row, escaped and separated by commas. -/
def csvRow (fields : List Bytes) : Bytes := List.intercalate [comma] (fields.map escapeForCsv)

theorem csvRow_cons (f : Bytes) (g : Bytes) (fs : List Bytes) :
    csvRow (f :: g :: fs) = escapeForCsv f ++ comma :: csvRow (g :: fs) := by
  simp [csvRow, List.intercalate, List.intersperse]

theorem csvRow_ne_nil (f : Bytes) (fs : List Bytes) : ∃ t, csvRow (f :: fs) = dquote :: t := by
  cases fs with
  | nil => exact ⟨_, by simp only [csvRow, List.map, List.intercalate, List.intersperse, List.flatten, escapeForCsv]; rfl⟩
  | cons g fs => exact ⟨_, by rw [csvRow_cons, escapeForCsv]; rfl⟩

theorem splitLoop_csvRow : ∀ (fields : List Bytes) (fuel : Nat),
    (csvRow fields).length < fuel → splitLoop fuel (csvRow fields) = fields := by
  have dq : (isSpace dquote && dquote != comma) = false := by decide
  have dq' : dquote ≠ comma := by decide
  intro fields
  induction fields with
  | nil =>
    intro fuel h
    cases fuel with
    | zero => simp at h
    | succ n => simp [splitLoop, csvRow, List.intercalate]
  | cons f fs ih =>
    intro fuel h
    cases fuel with
    | zero => simp at h
    | succ n =>
      cases fs with
      | nil =>
        have e : csvRow [f] = dquote :: (escapeBody f ++ dquote :: []) := by
          simp [csvRow, List.intercalate, List.intersperse, escapeForCsv]
        rw [e]
        simp only [splitLoop, List.cons_ne_nil, if_false, List.dropWhile, dq, if_true,
          quotedValue_escape f [] (by simp)]
        cases n <;> simp [splitLoop]
      | cons g fs =>
        obtain ⟨t, ht⟩ := csvRow_ne_nil g fs
        have e : csvRow (f :: g :: fs) =
            dquote :: (escapeBody f ++ dquote :: (comma :: csvRow (g :: fs))) := by
          rw [csvRow_cons, escapeForCsv]; simp
        have hlen : (csvRow (g :: fs)).length < n := by
          rw [e] at h
          simp at h ⊢
          omega
        rw [e]
        simp only [splitLoop, List.cons_ne_nil, if_false, List.dropWhile, dq, if_true,
          quotedValue_escape f (comma :: csvRow (g :: fs)) (by simp [comma, dquote]),
          bne_self_eq_false, List.tail_cons, ih n hlen, List.cons.injEq, true_and]
        rw [ht]
        simp

theorem mem_escapeBody {f : Bytes} {b : Byte} (h : b ∈ escapeBody f) : b ∈ f := by
  induction f with
  | nil => simp [escapeBody] at h
  | cons c f ih =>
    simp only [escapeBody] at h
    by_cases hc : c = dquote
    · simp only [hc, if_true, List.mem_cons] at h ⊢
      tauto
    · simp only [hc, if_false, List.mem_cons] at h ⊢
      tauto

theorem mem_csvRow {fields : List Bytes} {b : Byte} (h : b ∈ csvRow fields) :
    b = comma ∨ b = dquote ∨ ∃ f ∈ fields, b ∈ f := by
  induction fields with
  | nil => simp [csvRow, List.intercalate] at h
  | cons f fs ih =>
    cases fs with
    | nil =>
      have e : csvRow [f] = escapeForCsv f := by
        simp [csvRow, List.intercalate, List.intersperse]
      rw [e, escapeForCsv, List.mem_cons, List.mem_append, List.mem_singleton] at h
      rcases h with h | h | h
      · exact .inr (.inl h)
      · exact .inr (.inr ⟨f, by simp, mem_escapeBody h⟩)
      · exact .inr (.inl h)
    | cons g fs =>
      rw [csvRow_cons, escapeForCsv, List.mem_append, List.mem_cons, List.mem_append,
        List.mem_singleton, List.mem_cons] at h
      rcases h with (h | h | h) | h | h
      · exact .inr (.inl h)
      · exact .inr (.inr ⟨f, by simp, mem_escapeBody h⟩)
      · exact .inr (.inl h)
      · exact .inl h
      · rcases ih h with h | h | ⟨x, hx, h⟩
        · exact .inl h
        · exact .inr (.inl h)
        · exact .inr (.inr ⟨x, List.mem_cons_of_mem _ hx, h⟩)

theorem cString_eq {l : Bytes} (h : (0 : Byte) ∉ l) : cString l = l := by
  rw [cString, List.takeWhile_eq_self_iff]
  intro b hb
  simp only [bne_iff_ne, ne_eq]
  rintro rfl
  exact h hb

/-- **C35**.  Splitting the comma-separated list of the escaped fields gives the fields. -/
theorem C35_csv_round_trip (fields : List Bytes) (h : ∀ f ∈ fields, (0 : Byte) ∉ f) :
    splitCsvLine (List.intercalate [comma] (fields.map escapeForCsv)) = fields := by
  have h0 : (0 : Byte) ∉ csvRow fields := by
    intro hb
    rcases mem_csvRow hb with h' | h' | ⟨f, hf, h'⟩
    · exact absurd h' (by decide)
    · exact absurd h' (by decide)
    · exact h f hf h'
  have := splitLoop_csvRow fields ((csvRow fields).length + 1) (Nat.lt_succ_self _)
  rw [← csvRow, splitCsvLine, cString_eq h0, this]

/-- Two fields with quotes, commas, spaces and a newline. -/
example : splitCsvLine (List.intercalate [comma] ([str " a\"b,", str "", str "\"\" \n"].map
    escapeForCsv)) = [str " a\"b,", str "", str "\"\" \n"] :=
  C35_csv_round_trip _ (by decide)

/-- A NUL byte is not representable: the rest of the field is lost. -/
theorem C35_nul_lost : splitCsvLine (escapeForCsv [65, 0, 66]) = [[65]] := by decide

/-- White space around a field is dropped. -/
def strip (f : Bytes) : Bytes := trimRight (f.dropWhile isSpace)

theorem splitLoop_unquoted : ∀ (fuel : Nat) (line : Bytes), line.length < fuel → line ≠ [] →
    dquote ∉ line → splitLoop fuel line = (line.splitOn comma).map strip := by
  have hcs : isSpace comma = false := by decide
  have hpred : (fun b : Byte => isSpace b && b != comma) = isSpace := by
    funext b
    by_cases hb : b = comma
    · subst hb; decide
    · simp [hb]
  intro fuel
  induction fuel with
  | zero => intro line h; simp at h
  | succ n ih =>
    intro line hlen hne hq
    -- the field and the rest
    obtain ⟨field, rest, hline, hfield, hrest⟩ : ∃ field rest, line = field ++ rest ∧
        comma ∉ field ∧ (rest = [] ∨ ∃ r, rest = comma :: r) := by
      refine ⟨line.takeWhile (· != comma), line.dropWhile (· != comma), by simp, ?_, ?_⟩
      · intro h
        have := List.mem_takeWhile_imp h
        simp at this
      · cases h : line.dropWhile (· != comma) with
        | nil => exact .inl rfl
        | cons b r =>
          right
          have := List.head_dropWhile_not (p := (· != comma)) (l := line) (by rw [h]; simp)
          simp [h] at this
          exact ⟨r, by rw [this]⟩
    have hdrop : line.dropWhile isSpace = field.dropWhile isSpace ++ rest := by
      rw [hline, List.dropWhile_append]
      split
      · rename_i h
        rcases hrest with rfl | ⟨r, rfl⟩
        · simp at h ⊢
          exact h
        · simp [List.dropWhile, hcs]
          simp at h
          exact h
      · rfl
    have hfc : comma ∉ field.dropWhile isSpace := fun h =>
      hfield ((List.dropWhile_sublist _).subset h)
    have hqf : dquote ∉ field.dropWhile isSpace := fun h =>
      hq (by rw [hline]; exact List.mem_append_left _ ((List.dropWhile_sublist _).subset h))
    have htake : (field.dropWhile isSpace ++ rest).takeWhile (· != comma) =
        field.dropWhile isSpace := by
      rw [List.takeWhile_append_of_pos]
      · rcases hrest with rfl | ⟨r, rfl⟩ <;> simp
      · intro x hx
        simp only [bne_iff_ne, ne_eq]
        rintro rfl
        exact hfc hx
    have hdrop2 : (field.dropWhile isSpace ++ rest).dropWhile (· != comma) = rest := by
      rw [List.dropWhile_append_of_pos]
      · rcases hrest with rfl | ⟨r, rfl⟩ <;> simp
      · intro x hx
        simp only [bne_iff_ne, ne_eq]
        rintro rfl
        exact hfc hx
    have hval : (match line.dropWhile (fun b => isSpace b && b != comma) with
        | [] => (([], []) : Bytes × Bytes)
        | b :: r => if b = dquote then
            ((quotedValue r).1, (quotedValue r).2.dropWhile (· != comma))
          else (trimRight ((b :: r).takeWhile (· != comma)), (b :: r).dropWhile (· != comma))) =
        (strip field, rest) := by
      rw [hpred, hdrop]
      cases hd : field.dropWhile isSpace ++ rest with
      | nil =>
        simp at hd
        rw [strip, List.dropWhile_eq_nil_iff.2 (by intro x hx; exact hd.1 x hx), hd.2]
        rfl
      | cons b r =>
        simp only []
        have hb : b ≠ dquote := by
          rintro rfl
          have hm : dquote ∈ field.dropWhile isSpace ++ rest := by rw [hd]; simp
          rcases List.mem_append.1 hm with hm | hm
          · exact hqf hm
          · exact hq (by rw [hline]; exact List.mem_append_right _ hm)
        simp only [hb, if_false]
        rw [← hd, htake, hdrop2, strip]
    have hunf : splitLoop (n + 1) line = strip field ::
        ((if rest = [comma] then [[]] else []) ++ splitLoop n rest.tail) := by
      have h2 := congrArg Prod.fst hval
      have h3 := congrArg Prod.snd hval
      simp only [splitLoop, hne, if_false]
      revert h2 h3
      cases line.dropWhile (fun b => isSpace b && b != comma) with
      | nil => simp only []; intro h2 h3; rw [← h2, ← h3]
      | cons b r =>
        simp only []
        by_cases hb : b = dquote
        · simp only [hb, if_true]; intro h2 h3; rw [← h2, ← h3]
        · simp only [hb, if_false]; intro h2 h3; rw [← h2, ← h3]
    rw [hunf]
    rcases hrest with rfl | ⟨r, rfl⟩
    · rw [List.append_nil] at hline
      rw [hline, List.splitOn, List.splitOnP_eq_singleton]
      · cases n <;> simp [splitLoop]
      · intro x hx
        simp
        rintro rfl
        exact hfield hx
    · have hsp : line.splitOn comma = field :: r.splitOn comma := by
        rw [hline, List.splitOn, List.splitOnP_append_cons_of_forall_mem]
        · rfl
        · intro x hx
          simp
          rintro rfl
          exact hfield hx
        · simp
      rw [hsp, List.map_cons, List.tail_cons]
      congr 1
      by_cases hr : r = []
      · subst hr
        cases n <;> simp [splitLoop, List.splitOn, strip, trimRight]
      · have : ¬ (comma :: r = [comma]) := by simpa using hr
        rw [if_neg this, List.nil_append]
        apply ih r _ hr
        · intro h; exact hq (by rw [hline]; simp [h])
        · rw [hline] at hlen; simp at hlen; omega

/-- Lines without quotes: the text between the commas, with surrounding white space
dropped; an empty line has no columns. -/
theorem C35_unquoted (line : Bytes) (hq : dquote ∉ line) (h0 : (0 : Byte) ∉ line) :
    splitCsvLine line = if line = [] then [] else (line.splitOn comma).map strip := by
  rw [splitCsvLine, cString_eq h0]
  by_cases h : line = []
  · subst h; rfl
  · rw [if_neg h]
    exact splitLoop_unquoted _ _ (Nat.lt_succ_self _) h hq

/-- White space is tab, line feed, vertical tab, form feed, carriage return and space. -/
theorem C35_white_space (b : Byte) : isSpace b = true ↔ b ∈ ([9, 10, 11, 12, 13, 32] : List Byte) := by
  revert b; decide +kernel

example : splitCsvLine (str " a b , 12,") = [str "a b", str "12", []] := by
  rw [C35_unquoted _ (by decide) (by decide)]; decide

/-! ### C36 -/

theorem getLinesFrom_line (l : Bytes) (h : newline ∉ l) (acc r : Bytes) :
    getLinesFrom acc (l ++ newline :: r) = (acc ++ l) :: getLinesFrom [] r := by
  induction l generalizing acc with
  | nil => simp [getLinesFrom]
  | cons b l ih =>
    have hb : b ≠ newline := by rintro rfl; simp at h
    have hl : newline ∉ l := fun h' => h (List.mem_cons_of_mem _ h')
    rw [List.cons_append, getLinesFrom, if_neg hb, ih hl]
    simp

theorem getLines_lines (ls : List Bytes) (h : ∀ l ∈ ls, newline ∉ l) :
    getLines (ls.flatMap fun l => l ++ [newline]) = ls := by
  induction ls with
  | nil => rfl
  | cons l ls ih =>
    rw [List.flatMap_cons, getLines, List.append_assoc, List.singleton_append,
      getLinesFrom_line _ (h l (by simp))]
    rw [List.nil_append, ← getLines, ih fun l hl => h l (List.mem_cons_of_mem _ hl)]

theorem escape_no_newline {f : Bytes} (h : newline ∉ f) : newline ∉ escapeForCsv f := by
  rw [escapeForCsv, List.mem_cons, List.mem_append, List.mem_singleton]
  rintro (h' | h' | h')
  · exact absurd h' (by decide)
  · exact h (mem_escapeBody h')
  · exact absurd h' (by decide)

/-- An identifier that fits on a line of a dataset file. -/
def LineSafe (a : Bytes) : Prop := newline ∉ a ∧ (0 : Byte) ∉ a

theorem split_escape (a : Bytes) (h : (0 : Byte) ∉ a) : splitCsvLine (escapeForCsv a) = [a] := by
  have := C35_csv_round_trip [a] (by simpa using h)
  simpa [List.intercalate, List.intersperse] using this

theorem readServerLines_escape (data : List Bytes) (h : ∀ a ∈ data, (0 : Byte) ∉ a) :
    readServerLines (data.map escapeForCsv) = .ok data := by
  induction data with
  | nil => rfl
  | cons a data ih =>
    rw [List.map_cons, readServerLines, split_escape a (h a (by simp)),
      ih fun x hx => h x (List.mem_cons_of_mem _ hx)]
    rfl

/-- **C36**, server: what `WriteServerDatasetToFile` wrote is read back. -/
theorem C36_server_round_trip (io : WriteIo) (data : List Bytes) (content : Bytes)
    (h : ∀ a ∈ data, LineSafe a) (hw : writeServerDataset io data = .ok content) :
    readServerDataset (some content) = .ok data := by
  have hc : content = data.flatMap fun a => escapeForCsv a ++ [newline] := by
    unfold writeServerDataset at hw
    split at hw
    · cases hw
    split at hw
    · cases hw
    cases hw; rfl
  have : content = (data.map escapeForCsv).flatMap fun l => l ++ [newline] := by
    rw [hc, List.flatMap_map]
  rw [readServerDataset, this, getLines_lines, readServerLines_escape data fun a ha => (h a ha).2]
  intro l hl
  obtain ⟨a, ha, rfl⟩ := List.mem_map.1 hl
  exact escape_no_newline (h a ha).1

/-- What a decimal number denotes. -/
def digitsValue (ds : Bytes) : Nat := ds.foldl (fun acc b => 10 * acc + (b.val - 48)) 0

/-- A decimal digit. -/
def IsDigit (b : Byte) : Prop := 48 ≤ b.val ∧ b.val ≤ 57

instance (b : Byte) : Decidable (IsDigit b) := inferInstanceAs (Decidable (_ ∧ _))

theorem parseDigits_spec (ds : Bytes) (acc n : Nat) : parseDigits acc ds = some n ↔
    (∀ b ∈ ds, IsDigit b) ∧ n = ds.foldl (fun acc b => 10 * acc + (b.val - 48)) acc := by
  induction ds generalizing acc with
  | nil => simp [parseDigits, eq_comm]
  | cons b ds ih =>
    unfold parseDigits digitOf
    by_cases hb : 48 ≤ b.val ∧ b.val ≤ 57
    · simp only [hb, and_self, if_true]
      rw [ih]
      simp only [List.mem_cons, forall_eq_or_imp, List.foldl_cons]
      have : IsDigit b := hb
      tauto
    · simp only [hb, if_false]
      simp only [List.mem_cons, forall_eq_or_imp]
      have : ¬ IsDigit b := hb
      simp [this]

theorem digit_byte (d : Nat) (h : d < 10) : (Fin.ofNat 256 (48 + d) : Byte).val = 48 + d := by
  simp [Fin.ofNat]; omega

theorem natToDec_digits (n : Nat) : (∀ b ∈ natToDec n, IsDigit b) ∧ natToDec n ≠ [] ∧
    digitsValue (natToDec n) = n := by
  unfold natToDec
  by_cases h : n = 0
  · subst h; simp [IsDigit, digitsValue]
  simp only [h, if_false]
  refine ⟨?_, ?_, ?_⟩
  · intro b hb
    rw [List.mem_reverse, List.mem_map] at hb
    obtain ⟨d, hd, rfl⟩ := hb
    have := Nat.digits_lt_base (by norm_num) hd
    unfold IsDigit
    rw [digit_byte d this]
    omega
  · simpa [Nat.digits_eq_nil_iff_eq_zero] using h
  · have key : ∀ l : List Nat, (∀ d ∈ l, d < 10) →
        digitsValue ((l.map fun d => (Fin.ofNat 256 (48 + d) : Byte)).reverse) =
          Nat.ofDigits 10 l := by
      intro l hl
      induction l with
      | nil => rfl
      | cons d l ih =>
        have h1 := ih fun x hx => hl x (List.mem_cons_of_mem _ hx)
        rw [digitsValue] at h1
        rw [List.map_cons, List.reverse_cons, digitsValue, List.foldl_append, h1]
        simp only [List.foldl_cons, List.foldl_nil, Nat.ofDigits_cons]
        rw [digit_byte d (hl d (by simp))]
        omega
    rw [key _ fun d hd => Nat.digits_lt_base (by norm_num) hd, Nat.ofDigits_digits]

theorem isDigit_not_space {b : Byte} (h : IsDigit b) : isSpace b = false := by
  unfold IsDigit at h
  simp [isSpace]
  omega

theorem trimRight_of_last {l : Bytes} (h : ∀ b ∈ l.getLast?, isSpace b = false) :
    trimRight l = l := by
  unfold trimRight
  cases hl : l.reverse with
  | nil =>
    have : l = [] := by simpa using hl
    subst this; rfl
  | cons b r =>
    have : l.getLast? = some b := by
      rw [List.getLast?_eq_head?_reverse, hl]; rfl
    rw [List.dropWhile_cons_of_neg, ← hl, List.reverse_reverse]
    simp [h b this]

theorem strip_eq {l : Bytes} (h1 : ∀ b ∈ l.head?, isSpace b = false)
    (h2 : ∀ b ∈ l.getLast?, isSpace b = false) : strip l = l := by
  unfold strip
  have : l.dropWhile isSpace = l := by
    cases l with
    | nil => rfl
    | cons b r =>
      rw [List.dropWhile_cons_of_neg]
      simp [h1 b (by simp)]
  rw [this, trimRight_of_last h2]

/-- What `absl::SimpleAtoi` accepts: white space, an optional sign, digits, white space. -/
def Denotes (s : Bytes) (v : Int) : Prop :=
  ∃ pre sign ds post, s = pre ++ sign ++ ds ++ post ∧ (∀ b ∈ pre ++ post, isSpace b = true) ∧
    ds ≠ [] ∧ (∀ b ∈ ds, IsDigit b) ∧
    ((sign = [] ∨ sign = str "+") ∧ v = digitsValue ds ∨ sign = str "-" ∧ v = -(digitsValue ds : Int))

theorem exists_strip (s : Bytes) : ∃ pre post, s = pre ++ strip s ++ post ∧
    ∀ b ∈ pre ++ post, isSpace b = true := by
  refine ⟨s.takeWhile isSpace, ((s.dropWhile isSpace).reverse.takeWhile isSpace).reverse, ?_, ?_⟩
  · rw [strip, trimRight, List.append_assoc, ← List.reverse_append, List.takeWhile_append_dropWhile,
      List.reverse_reverse, List.takeWhile_append_dropWhile]
  · intro b hb
    rcases List.mem_append.1 hb with hb | hb
    · exact List.mem_takeWhile_imp hb
    · exact List.mem_takeWhile_imp (List.mem_reverse.1 hb)

theorem strip_pad (pre mid post : Bytes) (h : ∀ b ∈ pre ++ post, isSpace b = true)
    (h1 : ∀ b ∈ mid.head?, isSpace b = false) (h2 : ∀ b ∈ mid.getLast?, isSpace b = false)
    (hne : mid ≠ []) : strip (pre ++ mid ++ post) = mid := by
  have e1 : (pre ++ mid ++ post).dropWhile isSpace = mid ++ post := by
    rw [List.append_assoc, List.dropWhile_append_of_pos fun b hb => h b (List.mem_append_left _ hb)]
    cases mid with
    | nil => simp at hne
    | cons b r =>
      rw [List.cons_append, List.dropWhile_cons_of_neg]
      simp [h1 b (by simp)]
  rw [strip, e1, trimRight, List.reverse_append, List.dropWhile_append_of_pos]
  · have := trimRight_of_last h2
    rw [trimRight] at this
    exact this
  · intro b hb
    exact h b (List.mem_append_right _ (List.mem_reverse.1 hb))

theorem simpleAtoi_spec (s : Bytes) (v : Int) :
    simpleAtoi s = some v ↔ Denotes s v ∧ -(2 ^ 63) ≤ v ∧ v < 2 ^ 63 := by
  have hs : ∀ ds : Bytes, (∀ b ∈ ds, IsDigit b) → ∀ b ∈ ds.getLast?, isSpace b = false := by
    intro ds h b hb
    exact isDigit_not_space (h b (List.mem_of_getLast? hb))
  constructor
  · intro h
    obtain ⟨pre, post, hsp, hspace⟩ := exists_strip s
    unfold simpleAtoi at h
    rw [show trimRight (s.dropWhile isSpace) = strip s from rfl] at h
    cases hst : strip s with
    | nil => rw [hst] at h; cases h
    | cons b r =>
      rw [hst] at h hsp
      simp only [] at h
      by_cases hm : b = 45
      · simp only [hm, if_true] at h
        by_cases hr : r = []
        · simp [hr] at h
        simp only [hr, if_false] at h
        cases hp : parseDigits 0 r with
        | none => simp [hp] at h
        | some n =>
          rw [parseDigits_spec] at hp
          obtain ⟨hd, hn⟩ := hp
          have hp : parseDigits 0 r = some n := (parseDigits_spec r 0 n).2 ⟨hd, hn⟩
          simp only [hp] at h
          split at h
          · rename_i hlt
            cases h
            refine ⟨⟨pre, [45], r, post, ?_, hspace, hr, hd, .inr ⟨rfl, ?_⟩⟩, hlt⟩
            · rw [hsp, hm]; simp
            · rw [hn]; rfl
          · cases h
      simp only [hm, if_false] at h
      by_cases hpl : b = 43
      · simp only [hpl, if_true] at h
        by_cases hr : r = []
        · simp [hr] at h
        simp only [hr, if_false] at h
        cases hp : parseDigits 0 r with
        | none => simp [hp] at h
        | some n =>
          have hp' := hp
          rw [parseDigits_spec] at hp'
          obtain ⟨hd, hn⟩ := hp'
          simp only [hp, Bool.false_eq_true, if_false] at h
          split at h
          · rename_i hlt
            cases h
            refine ⟨⟨pre, [43], r, post, ?_, hspace, hr, hd, .inl ⟨.inr rfl, ?_⟩⟩, hlt⟩
            · rw [hsp, hpl]; simp
            · rw [hn]; rfl
          · cases h
      · simp only [hpl, if_false, List.cons_ne_nil] at h
        cases hp : parseDigits 0 (b :: r) with
        | none => simp [hp] at h
        | some n =>
          have hp' := hp
          rw [parseDigits_spec] at hp'
          obtain ⟨hd, hn⟩ := hp'
          simp only [hp, Bool.false_eq_true, if_false] at h
          split at h
          · rename_i hlt
            cases h
            refine ⟨⟨pre, [], b :: r, post, ?_, hspace, by simp, hd, .inl ⟨.inl rfl, ?_⟩⟩, hlt⟩
            · rw [hsp]; simp
            · rw [hn]; rfl
          · cases h
  · rintro ⟨⟨pre, sign, ds, post, rfl, hspace, hne, hd, hv⟩, hlt⟩
    have hlast : ∀ b ∈ (sign ++ ds).getLast?, isSpace b = false := by
      intro b hb
      rw [List.getLast?_append_of_ne_nil _ hne] at hb
      exact hs ds hd b hb
    have hparse : parseDigits 0 ds = some (digitsValue ds) := by
      rw [parseDigits_spec]; exact ⟨hd, rfl⟩
    have hst : strip (pre ++ sign ++ ds ++ post) = sign ++ ds := by
      rw [List.append_assoc pre sign ds]
      apply strip_pad _ _ _ hspace _ hlast (by simp [hne])
      intro b hb
      rcases hv with ⟨rfl | rfl, -⟩ | ⟨rfl, -⟩
      · rw [List.nil_append] at hb
        exact isDigit_not_space (hd b (List.mem_of_mem_head? hb))
      · have : b = 43 := by
          have : (str "+" ++ ds).head? = some 43 := rfl
          rw [this] at hb; simpa using hb.symm
        subst this; decide
      · have : b = 45 := by
          have : (str "-" ++ ds).head? = some 45 := rfl
          rw [this] at hb; simpa using hb.symm
        subst this; decide
    unfold simpleAtoi
    rw [show trimRight ((pre ++ sign ++ ds ++ post).dropWhile isSpace) =
      strip (pre ++ sign ++ ds ++ post) from rfl, hst]
    rcases hv with ⟨rfl | rfl, rfl⟩ | ⟨rfl, rfl⟩
    · rw [List.nil_append]
      cases ds with
      | nil => simp at hne
      | cons b r =>
        have hb := hd b (by simp)
        have h1 : b ≠ 45 := by rintro rfl; revert hb; decide
        have h2 : b ≠ 43 := by rintro rfl; revert hb; decide
        simp only [h1, h2, if_false, List.cons_ne_nil, hparse, Bool.false_eq_true]
        rw [if_pos hlt]
    · have e : str "+" ++ ds = (43 : Byte) :: ds := rfl
      rw [e]
      have h1 : (43 : Byte) ≠ 45 := by decide
      simp only [h1, if_false, if_true, hne, hparse, Bool.false_eq_true]
      rw [if_pos hlt]
    · have e : str "-" ++ ds = (45 : Byte) :: ds := rfl
      rw [e]
      simp only [if_true, hne, if_false, hparse]
      rw [if_pos hlt]

theorem simpleAtoi_dec (v : Int) (h0 : 0 ≤ v) (h : v < 2 ^ 63) :
    simpleAtoi (intToDec v) = some v := by
  obtain ⟨h1, h2, h3⟩ := natToDec_digits v.natAbs
  rw [simpleAtoi_spec]
  refine ⟨⟨[], [], natToDec v.natAbs, [], ?_, by simp, h2, h1, .inl ⟨.inl rfl, ?_⟩⟩, by omega, h⟩
  · rw [intToDec, if_neg (by omega)]; simp
  · rw [h3]; omega

/-- **C36**: the decimal text of every 64-bit integer, also a negative one, denotes it. -/
theorem C36_decimal (v : Int) (h0 : -(2 ^ 63) ≤ v) (h : v < 2 ^ 63) :
    Denotes (intToDec v) v ∧ simpleAtoi (intToDec v) = some v := by
  obtain ⟨h1, h2, h3⟩ := natToDec_digits v.natAbs
  have hd : Denotes (intToDec v) v := by
    by_cases hv : v < 0
    · refine ⟨[], str "-", natToDec v.natAbs, [], ?_, by simp, h2, h1, .inr ⟨rfl, ?_⟩⟩
      · rw [intToDec, if_pos hv, List.nil_append, List.append_nil]; rfl
      · rw [h3]; omega
    · refine ⟨[], [], natToDec v.natAbs, [], ?_, by simp, h2, h1, .inl ⟨.inl rfl, ?_⟩⟩
      · rw [intToDec, if_neg hv]; simp
      · rw [h3]; omega
  exact ⟨hd, (simpleAtoi_spec _ _).2 ⟨hd, h0, h⟩⟩

example : intToDec (-120) = str "-120" := by decide

theorem digits_free (n : Nat) : newline ∉ natToDec n ∧ (0 : Byte) ∉ natToDec n ∧
    comma ∉ natToDec n ∧ dquote ∉ natToDec n := by
  have h := (natToDec_digits n).1
  refine ⟨fun h' => ?_, fun h' => ?_, fun h' => ?_, fun h' => ?_⟩ <;>
    · have := h _ h'
      revert this
      decide

/-- A row of a client dataset splits into the identifier and the text of the value. -/
theorem split_client_row (a : Bytes) (h : (0 : Byte) ∉ a) (v : Int) (hv : 0 ≤ v) :
    splitCsvLine (escapeForCsv a ++ [comma] ++ intToDec v) = [a, intToDec v] := by
  have hdec : intToDec v = natToDec v.natAbs := by rw [intToDec, if_neg (by omega)]
  obtain ⟨f1, f2, f3, f4⟩ := digits_free v.natAbs
  obtain ⟨d1, d2, -⟩ := natToDec_digits v.natAbs
  rw [hdec]
  have h0 : (0 : Byte) ∉ escapeForCsv a ++ [comma] ++ natToDec v.natAbs := by
    rw [List.append_assoc, List.mem_append, escapeForCsv, List.mem_cons, List.mem_append,
      List.singleton_append, List.mem_singleton, List.mem_cons]
    rintro ((h' | h' | h') | h' | h')
    · exact absurd h' (by decide)
    · exact h (mem_escapeBody h')
    · exact absurd h' (by decide)
    · exact absurd h' (by decide)
    · exact f2 h'
  rw [splitCsvLine, cString_eq h0]
  have e : escapeForCsv a ++ [comma] ++ natToDec v.natAbs =
      dquote :: (escapeBody a ++ dquote :: (comma :: natToDec v.natAbs)) := by
    rw [escapeForCsv]; simp
  rw [e]
  have dq : (isSpace dquote && dquote != comma) = false := by decide
  have hc : (comma != comma) = false := by decide
  rw [splitLoop]
  simp only [List.cons_ne_nil, if_false, List.dropWhile, dq, if_true,
    quotedValue_escape a (comma :: natToDec v.natAbs) (by simp [comma, dquote]), hc,
    List.tail_cons]
  have : ¬ (comma :: natToDec v.natAbs = [comma]) := by simpa using d2
  rw [if_neg this, List.nil_append, splitLoop_unquoted _ _ _ d2 f4, List.splitOn,
    List.splitOnP_eq_singleton]
  · rw [List.map_singleton, strip_eq]
    · intro b hb; exact isDigit_not_space (d1 b (List.mem_of_mem_head? hb))
    · intro b hb; exact isDigit_not_space (d1 b (List.mem_of_getLast? hb))
  · intro b hb
    simp
    rintro rfl
    exact f3 hb
  · simp; omega

theorem readClientLines_escape (rows : List (Bytes × Int))
    (h : ∀ t ∈ rows, (0 : Byte) ∉ t.1 ∧ 0 ≤ t.2 ∧ t.2 < 2 ^ 63) :
    readClientLines (rows.map fun t => escapeForCsv t.1 ++ [comma] ++ intToDec t.2) =
      .ok (rows.map Prod.fst, rows.map Prod.snd) := by
  induction rows with
  | nil => rfl
  | cons t rows ih =>
    obtain ⟨h1, h2, h3⟩ := h t (by simp)
    simp only [List.map_cons]
    rw [readClientLines, split_client_row t.1 h1 t.2 h2]
    simp only [simpleAtoi_dec t.2 h2 h3]
    rw [if_neg (by omega), ih fun x hx => h x (List.mem_cons_of_mem _ hx)]
    rfl

/-- **C36**, client: what `WriteClientDatasetToFile` wrote is read back. -/
theorem C36_client_round_trip (io : WriteIo) (ids : List Bytes) (vals : List Int)
    (content : Bytes) (h : ∀ a ∈ ids, LineSafe a) (hv : ∀ v ∈ vals, 0 ≤ v ∧ v < 2 ^ 63)
    (hw : writeClientDataset io ids vals = .ok content) :
    readClientDataset (some content) = .ok (ids, vals) := by
  unfold writeClientDataset at hw
  by_cases hl : vals.length ≠ ids.length
  · simp [hl] at hw
  have hl' : vals.length = ids.length := by omega
  rw [if_neg hl] at hw
  split at hw
  · cases hw
  split at hw
  · cases hw
  cases hw
  have e : ((ids.zip vals).flatMap fun t =>
      escapeForCsv t.1 ++ [comma] ++ intToDec t.2 ++ [newline]) =
      ((ids.zip vals).map fun t => escapeForCsv t.1 ++ [comma] ++ intToDec t.2).flatMap
        fun l => l ++ [newline] := by
    rw [List.flatMap_map]
  rw [readClientDataset, e, getLines_lines, readClientLines_escape]
  · rw [List.map_fst_zip (by omega), List.map_snd_zip (by omega)]
  · intro t ht
    exact ⟨(h _ (List.of_mem_zip ht).1).2, hv _ (List.of_mem_zip ht).2⟩
  · intro l hl
    obtain ⟨t, ht, rfl⟩ := List.mem_map.1 hl
    have h1 := escape_no_newline (h _ (List.of_mem_zip ht).1).1
    have h2 := hv _ (List.of_mem_zip ht).2
    rw [intToDec, if_neg (by omega)]
    simp only [List.mem_append, List.mem_singleton, not_or]
    exact ⟨⟨h1, by decide⟩, (digits_free _).1⟩

/-- **C36**: the writer succeeds when the file can be opened and written (and, for the client,
there is one value for each identifier). -/
theorem C36_write_ok (data ids : List Bytes) (vals : List Int) (hl : vals.length = ids.length) :
    (∃ c, writeServerDataset ⟨true, true⟩ data = .ok c) ∧
    (∃ c, writeClientDataset ⟨true, true⟩ ids vals = .ok c) := by
  refine ⟨⟨_, rfl⟩, ?_⟩
  rw [writeClientDataset, if_neg (by simpa using hl)]
  exact ⟨_, rfl⟩

example : ∃ c, writeClientDataset ⟨true, true⟩ [str "a,\"b\" ", []] [0, 9223372036854775807] =
    .ok c ∧ readClientDataset (some c) = .ok ([str "a,\"b\" ", []], [0, 9223372036854775807]) :=
  ⟨_, rfl, C36_client_round_trip ⟨true, true⟩ _ _ _ (by unfold LineSafe; decide) (by decide) rfl⟩

/-- **C36**, the text written: one line for each record, the quoted identifier and, for the
client, a comma and the decimal value. -/
theorem C36_text (io : WriteIo) (data ids : List Bytes) (vals : List Int) (c : Bytes) :
    (writeServerDataset io data = .ok c →
      c = (data.map fun a => escapeForCsv a ++ str "\n").flatten) ∧
    (writeClientDataset io ids vals = .ok c →
      c = (List.zipWith (fun a v => escapeForCsv a ++ str "," ++ intToDec v ++ str "\n")
        ids vals).flatten) := by
  constructor
  · intro h
    unfold writeServerDataset at h
    split at h
    · cases h
    · split at h
      · cases h
      · cases h
        rw [List.flatMap_def]; rfl
  · intro h
    unfold writeClientDataset at h
    split at h
    · cases h
    · split at h
      · cases h
      · split at h
        · cases h
        · cases h
          rw [List.flatMap_def, List.map_zip_eq_zipWith]; rfl

/-- **C36**, refusals: different numbers of identifiers and values, and a file that cannot be
opened, give INVALID_ARGUMENT; a failure to write or close gives INTERNAL. -/
theorem C36_write_refuses (io : WriteIo) (data ids : List Bytes) (vals : List Int) :
    (vals.length ≠ ids.length → writeClientDataset io ids vals = .err .invalidArgument) ∧
    (io.opens = false → writeServerDataset io data = .err .invalidArgument ∧
      writeClientDataset io ids vals = .err .invalidArgument) ∧
    (io.opens = true → io.closes = false → writeServerDataset io data = .err .internal ∧
      (vals.length = ids.length → writeClientDataset io ids vals = .err .internal)) := by
  refine ⟨fun h => ?_, fun h => ⟨?_, ?_⟩, fun h h' => ⟨?_, fun hl => ?_⟩⟩ <;>
    simp [writeServerDataset, writeClientDataset, *]

/-- Without the restriction on newlines the round trip fails. -/
theorem C36_newline_fails : ∃ c, writeServerDataset ⟨true, true⟩ [[65, newline, 66]] = .ok c ∧
    readServerDataset (some c) ≠ .ok [[65, newline, 66]] :=
  ⟨_, rfl, by decide⟩

/-! ### C37 -/

/-- **C37**, server: the reader succeeds exactly if every line of the file has one column;
it returns these columns, one for each line, in order. -/
theorem C37_server (content : Bytes) (data : List Bytes) :
    readServerDataset (some content) = .ok data ↔
      List.Forall₂ (fun line a => splitCsvLine line = [a]) (getLines content) data := by
  rw [readServerDataset]
  generalize getLines content = ls
  induction ls generalizing data with
  | nil =>
    cases data <;> simp [readServerLines]
  | cons l ls ih =>
    rw [readServerLines]
    split
    · rename_i a ha
      rw [Res.bind_eq_ok]
      constructor
      · rintro ⟨rest, h1, h2⟩
        cases h2
        exact .cons ha ((ih _).1 h1)
      · intro h
        cases h with
        | cons h1 h2 =>
          rw [ha] at h1
          cases h1
          exact ⟨_, (ih _).2 h2, rfl⟩
    · rename_i hno
      constructor
      · intro h; cases h
      · intro h
        cases h with
        | cons h1 h2 => exact absurd h1 (hno _)

/-- **C37**, client: the reader succeeds exactly if every line of the file has two columns,
the second a decimal integer in `[0, 2^63)`; it returns these, one pair for each line, in
order. -/
theorem C37_client (content : Bytes) (ids : List Bytes) (vals : List Int) :
    readClientDataset (some content) = .ok (ids, vals) ↔
      ids.length = vals.length ∧
      List.Forall₂ (fun line (t : Bytes × Int) => ∃ txt, splitCsvLine line = [t.1, txt] ∧
        Denotes txt t.2 ∧ 0 ≤ t.2 ∧ t.2 < 2 ^ 63) (getLines content) (ids.zip vals) := by
  rw [readClientDataset]
  generalize getLines content = ls
  induction ls generalizing ids vals with
  | nil =>
    cases ids <;> cases vals <;> simp [readClientLines]
  | cons l ls ih =>
    rw [readClientLines]
    split
    · rename_i a txt ha
      cases hs : simpleAtoi txt with
      | none =>
        constructor
        · intro h; cases h
        · rintro ⟨hl, h⟩
          cases ids with
          | nil => simp at h
          | cons i ids =>
            cases vals with
            | nil => simp at hl
            | cons v vals =>
              rw [List.zip_cons_cons] at h
              cases h with
              | cons h1 h2 =>
                obtain ⟨txt', h3, h4, h5, h6⟩ := h1
                rw [ha] at h3
                simp only [List.cons.injEq, and_true] at h3
                rw [h3.2] at hs
                have := (simpleAtoi_spec txt' v).2 ⟨h4, by simp at h5 ⊢; omega, h6⟩
                rw [this] at hs
                cases hs
      | some n =>
        have hn := (simpleAtoi_spec txt n).1 hs
        simp only []
        by_cases hneg : n < 0
        · rw [if_pos hneg]
          constructor
          · intro h; cases h
          · rintro ⟨hl, h⟩
            exfalso
            cases ids with
            | nil => simp at h
            | cons i ids =>
              cases vals with
              | nil => simp at hl
              | cons v vals =>
                rw [List.zip_cons_cons] at h
                cases h with
                | cons h1 h2 =>
                  obtain ⟨txt', h3, h4, h5, h6⟩ := h1
                  rw [ha] at h3
                  simp only [List.cons.injEq, and_true] at h3
                  rw [h3.2] at hs
                  have := (simpleAtoi_spec txt' v).2 ⟨h4, by simp at h5 ⊢; omega, h6⟩
                  rw [this] at hs
                  cases hs
                  simp at h5
                  omega
        · rw [if_neg hneg, Res.bind_eq_ok]
          constructor
          · rintro ⟨⟨ids', vals'⟩, h1, h2⟩
            cases h2
            obtain ⟨h3, h4⟩ := (ih _ _).1 h1
            refine ⟨by simp [h3], ?_⟩
            rw [List.zip_cons_cons]
            exact .cons ⟨txt, ha, hn.1, by simp; omega, hn.2.2⟩ h4
          · rintro ⟨hl, h⟩
            cases ids with
            | nil => simp at h
            | cons i ids =>
              cases vals with
              | nil => simp at hl
              | cons v vals =>
                rw [List.zip_cons_cons] at h
                cases h with
                | cons h1 h2 =>
                  obtain ⟨txt', h3, h4, h5, h6⟩ := h1
                  rw [ha] at h3
                  simp only [List.cons.injEq, and_true] at h3
                  have := (simpleAtoi_spec txt' v).2 ⟨h4, by simp at h5 ⊢; omega, h6⟩
                  rw [h3.2, this] at hs
                  cases hs
                  refine ⟨(ids, vals), (ih _ _).2 ⟨by simpa using hl, h2⟩, ?_⟩
                  rw [h3.1]
    · rename_i hno
      constructor
      · intro h; cases h
      · rintro ⟨hl, h⟩
        cases ids with
        | nil => simp at h
        | cons i ids =>
          cases vals with
          | nil => simp at hl
          | cons v vals =>
            rw [List.zip_cons_cons] at h
            cases h with
            | cons h1 h2 =>
              obtain ⟨txt', h3, -⟩ := h1
              exact absurd h3 (hno _ _)

/-- **C37**, otherwise: the reader fails with INVALID_ARGUMENT; it never aborts. -/
theorem C37_refuses (file : Option Bytes) :
    (readServerDataset file = .err .invalidArgument ∨ ∃ d, readServerDataset file = .ok d) ∧
    (readClientDataset file = .err .invalidArgument ∨ ∃ d, readClientDataset file = .ok d) := by
  constructor
  · cases file with
    | none => exact .inl rfl
    | some c =>
      rw [readServerDataset]
      induction getLines c with
      | nil => exact .inr ⟨_, rfl⟩
      | cons l ls ih =>
        rw [readServerLines]
        split
        · rcases ih with ih | ⟨d, ih⟩
          · left; rw [ih]; rfl
          · right; exact ⟨_, by rw [ih]; rfl⟩
        · exact .inl rfl
  · cases file with
    | none => exact .inl rfl
    | some c =>
      rw [readClientDataset]
      induction getLines c with
      | nil => exact .inr ⟨_, rfl⟩
      | cons l ls ih =>
        rw [readClientLines]
        split
        · split
          · exact .inl rfl
          · split
            · exact .inl rfl
            · rcases ih with ih | ⟨d, ih⟩
              · left; rw [ih]; rfl
              · right; exact ⟨_, by rw [ih]; rfl⟩
        · exact .inl rfl

example : readClientDataset (some (str "a,5\nb, 7 \n")) = .ok ([str "a", str "b"], [5, 7]) := by
  decide

example : readClientDataset (some (str "a,5\nb,-7\n")) = .err .invalidArgument := by decide
example : readClientDataset (some (str "a,5\n\n")) = .err .invalidArgument := by decide
example : readServerDataset (some (str "a,5\n")) = .err .invalidArgument := by decide
example : readClientDataset (some (str "a,9223372036854775808\n")) = .err .invalidArgument := by
  decide

/-! ### C38 -/

/-- `std::shuffle` permutes. -/
structure DbRand.Ok (rnd : DbRand) : Prop where
  server : ∀ l, (rnd.shuffleServer l).Perm l
  client : ∀ l, (rnd.shuffleClient l).Perm l

/-- The sum of the values whose identifier is in `server`. -/
def sharedSum (server client : List Bytes) (vals : List Int) : Int :=
  (((client.zip vals).filter fun t => decide (t.1 ∈ server)).map Prod.snd).sum

theorem valuesLoop_ok (rnd : DbRand) (max : Int) (hmax : max < 2 ^ 63) (server : List Bytes) :
    ∀ (client : List Bytes) (i : Nat) (sum : Int) (vals : List Int) (s : Int),
    valuesLoop rnd max server i sum client = .ok (vals, s) →
    vals.length = client.length ∧ (∀ v ∈ vals, 0 ≤ v ∧ v < max) ∧
      s = sum + sharedSum server client vals := by
  intro client
  induction client with
  | nil =>
    intro i sum vals s h
    simp only [valuesLoop, Res.ok.injEq, Prod.mk.injEq] at h
    obtain ⟨rfl, rfl⟩ := h
    simp [sharedSum]
  | cons a r ih =>
    intro i sum vals s h
    by_cases hm : max ≤ 0
    · simp [valuesLoop, Ctx.randLessThan, hm] at h
    have hb0 : 0 ≤ (rnd.value i : Int) % max := Int.emod_nonneg _ (by omega)
    have hb1 : (rnd.value i : Int) % max < max := Int.emod_lt_of_pos _ (by omega)
    have hlt : ((rnd.value i : Int) % max).natAbs < 2 ^ 64 := by omega
    have hcast : (((rnd.value i : Int) % max).natAbs : Int) = (rnd.value i : Int) % max := by omega
    simp only [valuesLoop, Ctx.randLessThan, hm, if_false, Res.ok_bind, BN.toIntValue, hlt, if_true,
      Res.value_ok, hcast] at h
    generalize (rnd.value i : Int) % max = b at h hb0 hb1
    by_cases hov : (if a ∈ server then sum + b else sum) ≥ 2 ^ 63
    · rw [if_pos hov] at h; cases h
    rw [if_neg hov, Res.bind_eq_ok] at h
    obtain ⟨⟨vals', s'⟩, h1, h2⟩ := h
    simp only [Res.ok.injEq, Prod.mk.injEq] at h2
    obtain ⟨rfl, rfl⟩ := h2
    obtain ⟨e1, e2, e3⟩ := ih _ _ _ _ h1
    refine ⟨by simp [e1], ?_, ?_⟩
    · intro v hv
      rcases List.mem_cons.1 hv with rfl | hv
      · exact ⟨hb0, hb1⟩
      · exact e2 v hv
    · rw [e3]
      by_cases ha : a ∈ server
      · simp only [ha, if_true, sharedSum, List.zip_cons_cons]
        rw [List.filter_cons_of_pos (by simpa using ha)]
        simp; ring
      · simp only [ha, if_false, sharedSum, List.zip_cons_cons]
        rw [List.filter_cons_of_neg (by simpa using ha)]

theorem valuesLoop_total (rnd : DbRand) (max : Int) (h0 : 0 < max) (hmax : max < 2 ^ 63)
    (server : List Bytes) : ∀ (client : List Bytes) (i : Nat) (sum : Int),
    sum < 2 ^ 63 → 0 ≤ sum →
    sum + ((client.filter fun a => decide (a ∈ server)).length : Int) * (max - 1) < 2 ^ 63 →
    ∃ r, valuesLoop rnd max server i sum client = .ok r := by
  intro client
  induction client with
  | nil => intro i sum _ _ _; exact ⟨_, rfl⟩
  | cons a r ih =>
    intro i sum hs hs0 h
    have hb0 : 0 ≤ (rnd.value i : Int) % max := Int.emod_nonneg _ (by omega)
    have hb1 : (rnd.value i : Int) % max < max := Int.emod_lt_of_pos _ (by omega)
    have hlt : ((rnd.value i : Int) % max).natAbs < 2 ^ 64 := by omega
    have hcast : (((rnd.value i : Int) % max).natAbs : Int) = (rnd.value i : Int) % max := by omega
    have hm : ¬ max ≤ 0 := by omega
    simp only [valuesLoop, Ctx.randLessThan, hm, if_false, Res.ok_bind, BN.toIntValue, hlt, if_true,
      Res.value_ok, hcast]
    generalize (rnd.value i : Int) % max = b at hb0 hb1
    have hnn : 0 ≤ ((r.filter fun a => decide (a ∈ server)).length : Int) * (max - 1) :=
      mul_nonneg (by omega) (by omega)
    by_cases ha : a ∈ server
    · rw [List.filter_cons_of_pos (by simpa using ha), List.length_cons] at h
      push_cast at h
      rw [add_mul] at h
      simp only [ha, if_true]
      rw [if_neg (by omega)]
      obtain ⟨x, hx⟩ := ih (i + 1) (sum + b) (by omega) (by omega) (by omega)
      exact ⟨_, by rw [hx]; rfl⟩
    · rw [List.filter_cons_of_neg (by simpa using ha)] at h
      simp only [ha, if_false]
      rw [if_neg (by omega)]
      obtain ⟨x, hx⟩ := ih (i + 1) sum (by omega) (by omega) (by omega)
      exact ⟨_, by rw [hx]; rfl⟩

/-- An identifier as generated: 32 letters or digits. -/
def IsIdentifier (a : Bytes) : Prop := a.length = 32 ∧ ∀ b ∈ a, b ∈ alphaNumeric

theorem randomString_spec (rand : Nat → Nat) (n : Nat) :
    (randomString rand n).length = n ∧ ∀ b ∈ randomString rand n, b ∈ alphaNumeric := by
  induction n with
  | zero => simp [randomString]
  | succ n ih =>
    refine ⟨by simp [randomString, ih.1], ?_⟩
    intro b hb
    rcases List.mem_append.1 hb with hb | hb
    · exact ih.2 b hb
    · rw [List.mem_singleton] at hb
      subst hb
      have hl : rand n % 62 < alphaNumeric.length := by
        have : alphaNumeric.length = 62 := by decide
        rw [this]; exact Nat.mod_lt _ (by norm_num)
      rw [List.getD_eq_getElem _ _ hl]
      exact List.getElem_mem hl

/-- The arguments `GenerateRandomDatabases` accepts. -/
def GoodSizes (serverSize clientSize interSize maxValue : Int) : Prop :=
  0 ≤ interSize ∧ interSize ≤ serverSize ∧ interSize ≤ clientSize ∧ 0 ≤ maxValue ∧
    interSize * maxValue < 2 ^ 63

theorem goodSizes_iff (S C I M : Int) : GoodSizes S C I M ↔
    ¬ (I < 0 ∨ S < 0 ∨ C < 0 ∨ M < 0) ∧ ¬ (I > S ∨ I > C) ∧
    ¬ (M > 0 ∧ I > (2 ^ 63 - 1) / M) := by
  have key : 0 < M → (I ≤ (2 ^ 63 - 1) / M ↔ I * M ≤ 2 ^ 63 - 1) := fun hM =>
    Int.le_ediv_iff_mul_le hM
  unfold GoodSizes
  constructor
  · rintro ⟨h1, h2, h3, h4, h5⟩
    refine ⟨by omega, by omega, ?_⟩
    rintro ⟨hM, hI⟩
    have := (key hM).2 (by omega)
    omega
  · rintro ⟨h1, h2, h3⟩
    refine ⟨by omega, by omega, by omega, by omega, ?_⟩
    by_cases hM : M > 0
    · have := (key hM).1 (by by_contra hc; exact h3 ⟨hM, by omega⟩)
      omega
    · have : M = 0 := by omega
      subst this; norm_num

theorem refuses (rnd : DbRand) (S C I M : Int) (hM : M < 2 ^ 63) :
    (∃ c, generateRandomDatabases rnd S C I M = .err c) ↔ ¬ GoodSizes S C I M := by
  rw [goodSizes_iff]
  unfold generateRandomDatabases
  by_cases h1 : I < 0 ∨ S < 0 ∨ C < 0 ∨ M < 0
  · simp [h1]
  by_cases h2 : I > S ∨ I > C
  · simp only [h1, h2, if_true, if_false]; simp
  by_cases h3 : M > 0 ∧ I > (2 ^ 63 - 1) / M
  · simp only [h1, h2, h3, if_false]; simp
  rw [if_neg h1, if_neg h2, if_neg h3]
  simp only [h1, h2, h3, not_false_eq_true, and_self, not_true, iff_false, not_exists]
  intro c hc
  rw [Res.bind_eq_err] at hc
  rcases hc with hc | ⟨a, -, hc⟩
  · revert hc
    generalize (0 : Int) = s
    generalize (0 : Nat) = i
    generalize rnd.shuffleClient _ = l
    induction l generalizing i s with
    | nil => simp [valuesLoop]
    | cons x l ih =>
      by_cases hm : M ≤ 0
      · simp [valuesLoop, Ctx.randLessThan, hm]
      have hb0 : 0 ≤ (rnd.value i : Int) % M := Int.emod_nonneg _ (by omega)
      have hb1 : (rnd.value i : Int) % M < M := Int.emod_lt_of_pos _ (by omega)
      have hlt : ((rnd.value i : Int) % M).natAbs < 2 ^ 64 := by omega
      simp only [valuesLoop, Ctx.randLessThan, hm, if_false, Res.ok_bind, BN.toIntValue, hlt,
        if_true, Res.value_ok]
      generalize (if x ∈ (_ : List Bytes) then (_ : Int) else s) = s'
      intro hc
      by_cases hov : s' ≥ 2 ^ 63
      · rw [if_pos hov] at hc; cases hc
      · rw [if_neg hov, Res.bind_eq_err] at hc
        rcases hc with hc | ⟨a, -, hc⟩
        · exact ih _ _ hc
        · cases hc
  · cases hc

theorem refusal_code (rnd : DbRand) (S C I M : Int) (h : ¬ GoodSizes S C I M) :
    generateRandomDatabases rnd S C I M = .err .invalidArgument := by
  rw [goodSizes_iff] at h
  unfold generateRandomDatabases
  by_cases h1 : I < 0 ∨ S < 0 ∨ C < 0 ∨ M < 0
  · rw [if_pos h1]
  by_cases h2 : I > S ∨ I > C
  · rw [if_neg h1, if_pos h2]
  by_cases h3 : M > 0 ∧ I > (2 ^ 63 - 1) / M
  · rw [if_neg h1, if_neg h2, if_pos h3]
  · exact absurd ⟨h1, h2, h3⟩ h

/-- **C38**, refusal: exactly the bad sizes are refused, with INVALID_ARGUMENT. -/
theorem C38_refuses (rnd : DbRand) (S C I M : Int) (hM : M < 2 ^ 63) :
    (generateRandomDatabases rnd S C I M = .err .invalidArgument ↔ ¬ GoodSizes S C I M) ∧
    ∀ c, generateRandomDatabases rnd S C I M = .err c → c = .invalidArgument := by
  refine ⟨⟨fun h => (refuses rnd S C I M hM).1 ⟨_, h⟩, refusal_code rnd S C I M⟩, fun c hc => ?_⟩
  have := refusal_code rnd S C I M ((refuses rnd S C I M hM).1 ⟨c, hc⟩)
  rw [hc] at this
  cases this
  rfl

/-- **C38**, shape: what a successful call returns. -/
theorem C38_shape (rnd : DbRand) (hr : rnd.Ok) (S C I M : Int) (hM : M < 2 ^ 63)
    (server client : List Bytes) (vals : List Int) (sum : Int)
    (h : generateRandomDatabases rnd S C I M = .ok (server, (client, vals), sum)) :
    (server.length : Int) = S ∧ (client.length : Int) = C ∧ vals.length = client.length ∧
    (∀ a ∈ server ++ client, IsIdentifier a) ∧
    (∃ common : List Bytes, (common.length : Int) = I ∧ common.Subperm server ∧ common.Subperm client) ∧
    I ≤ (client.filter fun a => decide (a ∈ server)).length ∧
    (∀ v ∈ vals, 0 ≤ v ∧ v < M) ∧ sum = sharedSum server client vals := by
  have hg : GoodSizes S C I M := by
    by_contra hc
    have hc := (C38_refuses rnd S C I M hM).1.2 hc
    rw [hc] at h; cases h
  obtain ⟨h1, h2, h3⟩ := (goodSizes_iff S C I M).1 hg
  obtain ⟨g1, g2, g3, g4, g5⟩ := hg
  unfold generateRandomDatabases at h
  rw [if_neg h1, if_neg h2, if_neg h3] at h
  generalize hcm : (List.range I.toNat).map (fun i => randomString (rnd.common i) 32) = common at h
  rw [Res.bind_eq_ok] at h
  obtain ⟨⟨vals', sum'⟩, hl, h⟩ := h
  simp only [Res.ok.injEq, Prod.mk.injEq] at h
  obtain ⟨hs, ⟨hc, rfl⟩, rfl⟩ := h
  rw [hs, hc] at hl
  obtain ⟨e1, e2, e3⟩ := valuesLoop_ok rnd M hM server client 0 0 _ _ hl
  have ps : server.Perm (common ++ _) := hs ▸ hr.server _
  have pc : client.Perm (common ++ _) := hc ▸ hr.client _
  have lcm : common.length = I.toNat := by rw [← hcm]; simp
  have sub1 : common.Subperm server :=
    (List.sublist_append_left common _).subperm.trans ps.symm.subperm
  have sub2 : common.Subperm client :=
    (List.sublist_append_left common _).subperm.trans pc.symm.subperm
  refine ⟨?_, ?_, e1, ?_, ⟨common, by omega, sub1, sub2⟩, ?_, e2, by rw [e3]; simp⟩
  · rw [ps.length_eq]; simp [lcm]; omega
  · rw [pc.length_eq]; simp [lcm]; omega
  · intro a ha
    have hid : ∀ f : Nat → Nat → Nat, ∀ l : List Nat,
        a ∈ l.map (fun i => randomString (f i) 32) → IsIdentifier a := by
      intro f l hm
      obtain ⟨i, -, rfl⟩ := List.mem_map.1 hm
      exact randomString_spec _ _
    rcases List.mem_append.1 ha with ha | ha
    · rcases List.mem_append.1 (ps.subset ha) with ha | ha
      · rw [← hcm] at ha; exact hid _ _ ha
      · exact hid _ _ ha
    · rcases List.mem_append.1 (pc.subset ha) with ha | ha
      · rw [← hcm] at ha; exact hid _ _ ha
      · exact hid _ _ ha
  · have hperm := (pc.filter fun a => decide (a ∈ server)).length_eq
    rw [hperm, List.filter_append, List.length_append]
    have : common.filter (fun a => decide (a ∈ server)) = common := by
      rw [List.filter_eq_self]
      intro a ha
      simpa using sub1.subset ha
    rw [this, lcm]
    push_cast
    omega

/-- What the English statement says of all arguments: refused, or a result (whose shape is
`C38_shape`). -/
def C38Statement : Prop := ∀ (rnd : DbRand), rnd.Ok → ∀ S C I M : Int, M < 2 ^ 63 →
  (generateRandomDatabases rnd S C I M).returns

/-- It fails for the documented value `max_associated_value = 0`: the process aborts. -/
theorem C38_fails : ¬ C38Statement := by
  intro h
  have := h ⟨fun _ _ => 0, fun _ _ => 0, fun _ _ => 0, id, id, fun _ => 0⟩
    ⟨fun _ => .refl _, fun _ => .refl _⟩ 1 1 1 0 (by norm_num)
  revert this
  simp [generateRandomDatabases, valuesLoop, Ctx.randLessThan]

/-- **C38**, partial: with a positive maximum, and no more common identifiers than asked for
(random strings of 32 characters that coincide could overflow the 64-bit sum), accepted
arguments give a result.  Missing from the full statement: `max_associated_value = 0`, which
aborts (`C38_fails`), and sums that overflow through accidental coincidences. -/
theorem C38_total_partial (rnd : DbRand) (S C I M : Int) (hM : M < 2 ^ 63)
    (h0 : 0 < M) (hg : GoodSizes S C I M)
    (hno : ∀ server client, (server.length : Int) = S → (client.length : Int) = C →
      rnd.shuffleServer ((List.range I.toNat).map (fun i => randomString (rnd.common i) 32) ++
        (List.range (S - I).toNat).map fun i => randomString (rnd.server i) 32) = server →
      rnd.shuffleClient ((List.range I.toNat).map (fun i => randomString (rnd.common i) 32) ++
        (List.range (C - I).toNat).map fun i => randomString (rnd.client i) 32) = client →
      ((client.filter fun a => decide (a ∈ server)).length : Int) ≤ I) (hr : rnd.Ok) :
    ∃ x, generateRandomDatabases rnd S C I M = .ok x := by
  obtain ⟨h1, h2, h3⟩ := (goodSizes_iff S C I M).1 hg
  obtain ⟨g1, g2, g3, g4, g5⟩ := hg
  unfold generateRandomDatabases
  rw [if_neg h1, if_neg h2, if_neg h3]
  have hcount := hno _ _ ?_ ?_ rfl rfl
  · have hmul : ((List.filter (fun a => decide (a ∈ rnd.shuffleServer
        ((List.range I.toNat).map (fun i => randomString (rnd.common i) 32) ++
        (List.range (S - I).toNat).map fun i => randomString (rnd.server i) 32)))
        (rnd.shuffleClient ((List.range I.toNat).map (fun i => randomString (rnd.common i) 32) ++
        (List.range (C - I).toNat).map fun i => randomString (rnd.client i) 32))).length : Int) *
        (M - 1) ≤ I * (M - 1) := by
      gcongr
      omega
    have h5 : I * (M - 1) ≤ I * M := by
      apply mul_le_mul_of_nonneg_left _ g1
      omega
    obtain ⟨⟨v, s⟩, hx⟩ := valuesLoop_total rnd M h0 hM _ _ 0 0 (by norm_num) le_rfl
      (by rw [zero_add]; exact lt_of_le_of_lt (hmul.trans h5) g5)
    simp only [hx, Res.ok_bind]
    exact ⟨_, rfl⟩
  · rw [(hr.server _).length_eq]; simp; omega
  · rw [(hr.client _).length_eq]; simp; omega

/-- One shared identifier out of two on each side. -/
example : generateRandomDatabases ⟨fun i _ => i, fun i _ => i + 1, fun i _ => i + 2,
    List.reverse, List.reverse, fun i => i + 5⟩ 2 2 1 4 =
    .ok ([List.replicate 32 50, List.replicate 32 49],
      ([List.replicate 32 51, List.replicate 32 49], [1, 2]), 2) := by
  decide +kernel

end PJC.Data
