import Verif.Lemmas.RecordIO
import Verif.Props.DataUtil
/-
C39, C40, C41: record files and line files.
-/
namespace PJC.Rec

/-- A file just opened for reading. -/
def opened (content : Bytes) : Stream := { rest := content, eof := false }

/-- Everything a record reader returns until it reports no more data or an error. -/
def readRecords (junk : Nat) (content : Bytes) : List Bytes × Res Unit :=
  readAll junk (content.length + 1) (opened content)

/-- Opening a file, writing records to it and closing it. -/
def writeRecords (Ω : Faults) (name : Bytes) (rs : List Bytes) (w : World) : Res Unit × World :=
  ((writeFile Ω (fun r o => o.writeRecord Ω r) name rs ⟨none, w⟩).1,
    (writeFile Ω (fun r o => o.writeRecord Ω r) name rs ⟨none, w⟩).2.world)

theorem eq_pair {α β : Type} {p : α × β} {a : α} (h : p.1 = a) : p = (a, p.2) := by
  rw [← h]

/-- **C39**.  If writing and closing succeed, the file holds content from which exactly the
written records are read, in order, and then the end of the data is reported; no other file
has changed. -/
theorem C39_round_trip (Ω : Faults) (name : Bytes) (rs : List Bytes) (w w' : World) (junk : Nat)
    (h : writeRecords Ω name rs w = (.ok (), w')) :
    ∃ content, w'.files name = some content ∧ readRecords junk content = (rs, .ok ()) ∧
      ∀ n, n ≠ name → w'.files n = w.files n := by
  simp only [writeRecords, Prod.mk.injEq] at h
  obtain ⟨h1, rfl⟩ := h
  obtain ⟨a, b, c, d⟩ := writeFile_ok (eq_pair h1)
  exact ⟨_, c, readAll_ok junk rs a _ (Nat.lt_succ_self _), d⟩

/-- **C39**: writing succeeds if no call fails and every record is shorter than 2^31 bytes. -/
theorem C39_write_ok (name : Bytes) (rs : List Bytes) (w : World)
    (h : ∀ r ∈ rs, r.length < 2 ^ 31) : (writeRecords .none name rs w).1 = .ok () := by
  obtain ⟨o', ho⟩ := writeFile_none name rs w h
  simp [writeRecords, ho]

/-- Three records, one of them empty and one of 200 bytes. -/
example : ∃ w' c, writeRecords .none (str "f") [[1, 2], [], List.replicate 200 7]
      ⟨fun _ => none, 0⟩ = (.ok (), w') ∧ w'.files (str "f") = some c ∧
      readRecords 5 c = ([[1, 2], [], List.replicate 200 7], .ok ()) := by
  have h := C39_write_ok (str "f") [[1, 2], [], List.replicate 200 7] ⟨fun _ => none, 0⟩
    (by intro r hr; simp only [List.mem_cons, List.not_mem_nil, or_false] at hr
        rcases hr with rfl | rfl | rfl
        · decide
        · decide
        · rw [List.length_replicate]; decide)
  obtain ⟨c, h1, h2, -⟩ := C39_round_trip .none (str "f") _ ⟨fun _ => none, 0⟩ _ 5 (eq_pair h)
  exact ⟨_, c, eq_pair h, h1, h2⟩

/-- The content of a file to which the records `rs` were written without any failure. -/
def fileOf (rs : List Bytes) : Option Bytes :=
  (writeRecords .none (str "f") rs ⟨fun _ => none, 0⟩).2.files (str "f")

theorem fileOf_eq {rs : List Bytes} (h : ∀ r ∈ rs, r.length < 2 ^ 31) :
    fileOf rs = some (fileBytes rs) := by
  obtain ⟨o', ho⟩ := writeFile_none (str "f") rs ⟨fun _ => none, 0⟩ h
  obtain ⟨-, -, h1, -⟩ := writeFile_ok ho
  rw [fileOf, writeRecords, ho]
  exact h1

/-- **C40**.  A file written completely and then cut off after `k` bytes: reading gives the
first `j` records for some `j`, and then the end of the data or INTERNAL.  The end of the data
is reported exactly if what is left of the file is the file of the first `j` records alone,
and `j` is as large as it can be: every record that lies completely before the cut is read.
(`junk` is the value protobuf leaves behind for an incomplete varint; it is not 0.) -/
theorem C40_truncated (Ω : Faults) (name : Bytes) (rs : List Bytes) (w w' : World) (junk : Nat)
    (hj : 0 < junk) (h : writeRecords Ω name rs w = (.ok (), w')) :
    ∃ content, w'.files name = some content ∧ ∀ k,
      ∃ j, j ≤ rs.length ∧ (readRecords junk (content.take k)).1 = rs.take j ∧
        ((readRecords junk (content.take k)).2 = .ok () ∨
          (readRecords junk (content.take k)).2 = .err .internal) ∧
        ((readRecords junk (content.take k)).2 = .ok () ↔
          fileOf (rs.take j) = some (content.take k)) ∧
        ∀ i, i ≤ rs.length → ∀ c, fileOf (rs.take i) = some c → c.length ≤ k → i ≤ j := by
  simp only [writeRecords, Prod.mk.injEq] at h
  obtain ⟨h1, rfl⟩ := h
  obtain ⟨a, b, c, d⟩ := writeFile_ok (eq_pair h1)
  refine ⟨_, c, fun k => ?_⟩
  have hle : ∀ i, ∀ r ∈ rs.take i, r.length < 2 ^ 31 :=
    fun i r hr => a _ (List.mem_of_mem_take hr)
  obtain ⟨j, h1, h2, h3, h4⟩ := readAll_cut junk hj rs a ((fileBytes rs).take k)
    (((fileBytes rs).take k).length + 1) (List.take_prefix _ _) (Nat.lt_succ_self _)
  refine ⟨j, h1, ?_, ?_, ?_, ?_⟩
  · rcases h4 with ⟨-, h5⟩ | ⟨-, h5⟩ <;> rw [readRecords, opened, h5]
  · rcases h4 with ⟨-, h5⟩ | ⟨-, h5⟩
    · left; rw [readRecords, opened, h5]
    · right; rw [readRecords, opened, h5]
  · rw [fileOf_eq (hle _)]
    rcases h4 with ⟨h4, h5⟩ | ⟨h4, h5⟩ <;> rw [readRecords, opened, h5]
    · simp [← h4]
    · simp only [reduceCtorEq, Option.some.injEq, false_iff]
      exact fun e => h4 e.symm
  · intro i hi e he hlen
    rw [fileOf_eq (hle _)] at he
    cases he
    by_contra hc
    have h5 := h3 (by omega)
    have hsplit : rs.take i = rs.take (j + 1) ++ (rs.take i).drop (j + 1) := by
      conv_lhs => rw [← List.take_append_drop (j + 1) (rs.take i)]
      rw [List.take_take, min_eq_left (by omega)]
    have h6 : (fileBytes (rs.take (j + 1))).length ≤ (fileBytes (rs.take i)).length := by
      rw [hsplit]
      simp [fileBytes]
    have h7 : (fileBytes (rs.take i)).length ≤ (fileBytes rs).length := by
      have := congrArg (fun l => (fileBytes l).length) (List.take_append_drop i rs)
      simp only [fileBytes, List.flatMap_append, List.length_append] at this ⊢
      omega
    rw [List.length_take] at h5
    omega

/-- **C40**, crash or device errors while writing: whichever calls fail, the file is as it was
before the file was opened, or reading it gives an initial part of the records and then the
end of the data or INTERNAL. -/
theorem C40_any_fault (Ω : Faults) (name : Bytes) (rs : List Bytes)
    (hrs : ∀ r ∈ rs, r.length < 2 ^ 31) (w : World) (junk : Nat) (hj : 0 < junk) :
    (writeRecords Ω name rs w).2.files name = w.files name ∨
    ∃ content j, (writeRecords Ω name rs w).2.files name = some content ∧
      (readRecords junk content).1 = rs.take j ∧
      ((readRecords junk content).2 = .ok () ∨ (readRecords junk content).2 = .err .internal) := by
  rcases writeFile_prefix Ω name rs ⟨none, w⟩ with h | ⟨c, h1, h2⟩
  · exact .inl h
  · right
    obtain ⟨j, -, -, -, h4⟩ := readAll_cut junk hj rs hrs c (c.length + 1) h2 (Nat.lt_succ_self _)
    refine ⟨c, j, h1, ?_, ?_⟩
    · rcases h4 with ⟨-, h5⟩ | ⟨-, h5⟩ <;> rw [readRecords, opened, h5]
    · rcases h4 with ⟨-, h5⟩ | ⟨-, h5⟩
      · left; rw [readRecords, opened, h5]
      · right; rw [readRecords, opened, h5]

/-- If protobuf left 0 behind, a file cut inside a length would give an empty record that was
never written: the code relies on a value it does not check. -/
theorem C40_junk_zero : readRecords 0 ((recBytes (List.replicate 200 7)).take 1) = ([[]], .ok ()) := by
  decide +kernel

/-- A record of 200 bytes cut at each of the three kinds of places. -/
example : readRecords 1 ((fileBytes [[5], List.replicate 200 7]).take 2) = ([[5]], .ok ()) ∧
    readRecords 1 ((fileBytes [[5], List.replicate 200 7]).take 3) = ([[5]], .err .internal) ∧
    readRecords 1 ((fileBytes [[5], List.replicate 200 7]).take 10) = ([[5]], .err .internal) := by
  decide +kernel

/-! ### C41 -/

/-- Everything a line reader returns until it reports no more data or an error. -/
def readLines (content : Bytes) : List Bytes × Res Unit :=
  readAllLines (content.length + 1) (opened content)

/-- Opening a file, writing lines to it and closing it. -/
def writeLines (Ω : Faults) (name : Bytes) (ls : List Bytes) (w : World) : Res Unit × World :=
  ((writeFile Ω (fun r o => o.writeLine Ω r) name ls ⟨none, w⟩).1,
    (writeFile Ω (fun r o => o.writeLine Ω r) name ls ⟨none, w⟩).2.world)

/-- What the English statement says of all lists of lines. -/
def C41Statement : Prop := ∀ (Ω : Faults) (name : Bytes) (ls : List Bytes) (w w' : World),
  writeLines Ω name ls w = (.ok (), w') →
  ∃ content, w'.files name = some content ∧ readLines content = (ls, .ok ())

/-- It fails: a line that ends in a carriage return loses it. -/
theorem C41_fails : ¬ C41Statement := by
  intro h
  obtain ⟨c, h1, h2⟩ := h .none [1] [[65, 13]] ⟨fun _ => none, 0⟩ _ rfl
  have hc : c = [65, 13, 10] := by
    have h1' : some ([65, 13, 10] : Bytes) = some c := h1
    exact (Option.some.inj h1').symm
  subst hc
  exact absurd h2 (by decide)

/-- A line the reader can take back: no newline, no NUL, not ending in a carriage return, and
shorter than the reader's buffer. -/
def PlainLine (l : Bytes) : Prop :=
  (10 : Byte) ∉ l ∧ (0 : Byte) ∉ l ∧ l.getLast? ≠ some 13 ∧ l.length + 2 ≤ lineMax

theorem fgets_line (l : Bytes) (h : (10 : Byte) ∉ l) : ∀ (n : Nat) (r : Bytes), l.length < n →
    fgets n (l ++ 10 :: r) = (l ++ [10], r) := by
  induction l with
  | nil =>
    intro n r hn
    cases n with
    | zero => simp at hn
    | succ n => simp [fgets]
  | cons b l ih =>
    intro n r hn
    cases n with
    | zero => simp at hn
    | succ n =>
      have hb : b ≠ 10 := by rintro rfl; simp at h
      simp only [List.cons_append, fgets, hb, if_false]
      rw [ih (fun h' => h (List.mem_cons_of_mem _ h')) n r (by simpa using hn)]

theorem readLine_plain (l r : Bytes) (h : PlainLine l) :
    Stream.readLine ⟨l ++ 10 :: r, false⟩ = (.ok l, ⟨r, false⟩) := by
  obtain ⟨h1, h2, h3, h4⟩ := h
  have hf := fgets_line l h1 (lineMax - 1) r (by unfold lineMax at *; omega)
  have hc : Data.cString (l ++ [10]) = l ++ [10] := by
    apply Data.cString_eq
    simp [h2]
  unfold Stream.readLine
  have hne : ∃ b t, l ++ 10 :: r = b :: t := by
    cases l with
    | nil => exact ⟨_, _, rfl⟩
    | cons b l => exact ⟨_, _, rfl⟩
  obtain ⟨b, t, hbt⟩ := hne
  simp only [hbt]
  rw [← hbt, hf]
  simp [hc, h3]

theorem readAllLines_plain (ls : List Bytes) (h : ∀ l ∈ ls, PlainLine l) : ∀ fuel,
    (ls.flatMap fun l => l ++ [10]).length < fuel →
    readAllLines fuel ⟨ls.flatMap fun l => l ++ [10], false⟩ = (ls, .ok ()) := by
  induction ls with
  | nil =>
    intro fuel hf
    cases fuel with
    | zero => omega
    | succ n => rfl
  | cons l ls ih =>
    intro fuel hf
    cases fuel with
    | zero => omega
    | succ n =>
      rw [List.flatMap_cons] at hf ⊢
      rw [readAllLines, Stream.hasMore_ne (by simp)]
      simp only [Bool.not_true, Bool.false_eq_true, if_false]
      rw [List.append_assoc, List.singleton_append, readLine_plain l _ (h l (by simp))]
      simp only []
      rw [ih (fun l hl => h l (List.mem_cons_of_mem _ hl)) n (by simp at hf ⊢; omega)]

theorem writeLine_ok {Ω : Faults} {l : Bytes} {o o' : Out} {u : Unit} {name c : Bytes}
    (h : o.writeLine Ω l = (.ok u, o')) (hh : o.handle = some name)
    (hc : o.world.files name = some c) :
    o'.handle = some name ∧ o'.world.files name = some (c ++ (l ++ [10])) ∧
      ∀ n, n ≠ name → o'.world.files n = o.world.files n := by
  unfold Out.writeLine at h
  split at h
  · rename_i o1 h1
    obtain ⟨n1, e1, rfl⟩ := Out.write_ok h1
    rw [hh] at e1; cases e1
    obtain ⟨n2, e2, rfl⟩ := Out.write_ok h
    cases e2
    refine ⟨rfl, by simp [hc], ?_⟩
    intro n hn
    rw [World.set_other _ _ hn, World.set_other _ _ hn]
  · rename_i hno
    exact absurd h (hno _ _)

theorem writeAllLines_ok {Ω : Faults} : ∀ (ls : List Bytes) (o o' : Out) (u : Unit) (name c : Bytes),
    o.writeAll (fun r o => o.writeLine Ω r) ls = (.ok u, o') → o.handle = some name →
    o.world.files name = some c →
    o'.world.files name = some (c ++ ls.flatMap fun l => l ++ [10]) := by
  intro ls
  induction ls with
  | nil =>
    intro o o' u name c h hh hc
    simp only [Out.writeAll, Prod.mk.injEq] at h
    obtain ⟨-, rfl⟩ := h
    simp [hc]
  | cons l ls ih =>
    intro o o' u name c h hh hc
    rw [Out.writeAll] at h
    split at h
    · rename_i o1 hw
      obtain ⟨h1, h2, h3⟩ := writeLine_ok hw hh hc
      rw [ih _ _ _ name _ h h1 h2, List.flatMap_cons, List.append_assoc]
    · rename_i hno
      exact absurd h (hno _ _)

/-- **C41**, partial: lines without newline and NUL, not ending in a carriage return, of at
most 2046 bytes are read back unchanged.  Missing: all other lines (`C41_fails`). -/
theorem C41_round_trip_partial (Ω : Faults) (name : Bytes) (ls : List Bytes)
    (hls : ∀ l ∈ ls, PlainLine l) (w w' : World)
    (h : writeLines Ω name ls w = (.ok (), w')) :
    ∃ content, w'.files name = some content ∧ readLines content = (ls, .ok ()) := by
  simp only [writeLines, Prod.mk.injEq] at h
  obtain ⟨h1, rfl⟩ := h
  have hw := eq_pair h1
  refine ⟨ls.flatMap fun l => l ++ [10], ?_, readAllLines_plain ls hls _ (Nat.lt_succ_self _)⟩
  generalize (writeFile Ω (fun r o => o.writeLine Ω r) name ls ⟨none, w⟩).2 = o' at hw ⊢
  unfold writeFile at hw
  split at hw
  · rename_i o1 h1
    obtain ⟨-, rfl⟩ := Out.open_ok h1
    split at hw
    · rename_i o2 h2
      have := writeAllLines_ok ls _ _ _ name [] h2 rfl (by simp)
      obtain ⟨name', hn, rfl⟩ := Out.close_ok hw
      simpa using this
    · rename_i hno
      exact absurd hw (hno _ _)
  · rename_i hno
    exact absurd hw (hno _ _)

/-- The longest line that survives, and an empty one; one byte more and it is split. -/
example : (∀ l ∈ [[], List.replicate 2046 (65 : Byte)], PlainLine l) := by
  intro l hl
  simp only [List.mem_cons, List.not_mem_nil, or_false] at hl
  rcases hl with rfl | rfl
  · unfold PlainLine; decide
  · refine ⟨?_, ?_, ?_, ?_⟩
    · intro h; have := List.eq_of_mem_replicate h; revert this; decide
    · intro h; have := List.eq_of_mem_replicate h; revert this; decide
    · rw [List.getLast?_replicate]; decide
    · rw [List.length_replicate]; decide

end PJC.Rec
