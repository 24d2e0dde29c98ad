import Verif.Props.Shard
import Verif.Model.MergeDefault
import Mathlib.Data.List.Lex
/-
C142: merging readers opened without a key function.
-/
namespace PJC.Rec

/-- Strings in the order of `std::string`: byte by byte, a prefix first. -/
def upTo : Bytes → Bytes → Prop
  | [], _ => True
  | _ :: _, [] => False
  | a :: as, b :: bs => a < b ∨ (a = b ∧ upTo as bs)

instance upTo.decidable : ∀ a b, Decidable (upTo a b)
  | [], _ => isTrue trivial
  | _ :: _, [] => isFalse id
  | a :: as, b :: bs =>
    have := upTo.decidable as bs
    inferInstanceAs (Decidable (a < b ∨ (a = b ∧ upTo as bs)))

theorem upTo_iff : ∀ a b : Bytes, upTo a b ↔ a ≤ b
  | [], b => ⟨fun _ => by
      cases b with
      | nil => exact le_refl _
      | cons x l => exact le_of_lt (List.nil_lt_cons x l), fun _ => trivial⟩
  | x :: l, [] => ⟨fun h => h.elim, fun h => absurd (List.nil_lt_cons x l) (not_lt_of_ge h)⟩
  | a :: as, b :: bs => by
    have ih := upTo_iff as bs
    rw [upTo, ih, le_iff_lt_or_eq, le_iff_lt_or_eq]
    have h : a :: as < b :: bs ↔ a < b ∨ a = b ∧ as < bs := List.cons_lt_cons_iff
    rw [h, List.cons.injEq]
    tauto

/-- A reader of strings opened without a key returns every record exactly once and in the order of
strings, if each file is in this order; the records of file `i` are returned with index `i` and in
their order in the file; then it can be closed and used again. -/
theorem C142_string (junk : Nat) (pick : Pick Bytes) (hp : pick.Min)
    (files : Bytes → Option Bytes) (names : List Bytes) (contents : List (List Bytes))
    (hf : Hold files names contents) (hs : ∀ rs ∈ contents, rs.Pairwise upTo)
    (m0 : Merge Bytes) (h0 : m0.Closed) :
    ∃ m out m' m'', m0.openDefault files names stringKey = (.ok (), m) ∧
      m.readAll junk pick (m.size + 1) = (out, .ok (), m') ∧
      (out.map Prod.fst).Pairwise upTo ∧
      (out.map Prod.fst).Perm contents.flatten ∧
      (∀ i, (out.filter fun x => x.2 = i).map Prod.fst = contents.getD i []) ∧
      m'.close = (.ok (), m'') ∧ m''.Closed := by
  obtain ⟨m, out, m', m'', h1, h2, h3, h4, h5, -, h6, h7⟩ := C42_merge (fun s => s) junk pick hp files
    names contents hf (fun rs hr => by
      have := (hs rs hr).imp fun {a b} h => (upTo_iff a b).1 h
      simpa [SortedBy] using this) m0 h0
  exact ⟨m, out, m', m'', h1, h2, by
    have h3 : (out.map Prod.fst).Pairwise (· ≤ ·) := by
      unfold SortedBy at h3
      rwa [List.map_id'] at h3
    exact h3.imp fun {a b} h => (upTo_iff a b).2 h, h4, h5, h6, h7⟩

/-- A reader of integers opened without a key returns every record exactly once, and the records of
file `i` with index `i` and in their order in the file, whatever the files hold. -/
theorem C142_int_partial (junk : Nat) (pick : Pick Int) (hp : pick.Min)
    (files : Bytes → Option Bytes) (names : List Bytes) (contents : List (List Bytes))
    (hf : Hold files names contents) (m0 : Merge Int) (h0 : m0.Closed) :
    ∃ m out m' m'', m0.openDefault files names intKey = (.ok (), m) ∧
      m.readAll junk pick (m.size + 1) = (out, .ok (), m') ∧
      (out.map Prod.fst).Perm contents.flatten ∧
      (∀ i, (out.filter fun x => x.2 = i).map Prod.fst = contents.getD i []) ∧
      m'.close = (.ok (), m'') ∧ m''.Closed := by
  obtain ⟨m, out, m', m'', h1, h2, -, h4, h5, -, h6, h7⟩ := C42_merge (fun _ => (0 : Int)) junk pick hp
    files names contents hf (fun rs _ => by simp [SortedBy, List.pairwise_replicate]) m0 h0
  exact ⟨m, out, m', m'', h1, h2, h4, h5, h6, h7⟩

/-- A reader opened without a key function and without a default key fails and is not changed. -/
theorem C142_no_key {κ : Type} (files : Bytes → Option Bytes) (names : List Bytes) (m : Merge κ) :
    m.openDefault files names none = (.err .invalidArgument, m) := rfl

/-- File 1 holds "1", file 2 holds "2". -/
def twoFiles (n : Bytes) : Option Bytes :=
  if n = [1] then fileOf [[49]] else if n = [2] then fileOf [[50]] else none

/-- What a reader of integers returns for these files. -/
def readTwo (names : List Bytes) : List Bytes :=
  let m := ((Merge.init : Merge Int).openDefault twoFiles names intKey).2
  ((m.readAll 1 minPick (m.size + 1)).1).map Prod.fst

/-- The order of what a reader of integers returns is not ascending in any order of the records in
which "1" and "2" differ: it changes with the order of the files, although each holds one record. -/
theorem C142_int_fails (le : Bytes → Bytes → Prop) (h : ¬ (le [49] [50] ∧ le [50] [49])) :
    ∃ names, names.Perm [[1], [2]] ∧ ¬ (readTwo names).Pairwise le := by
  have e1 : (readTwo [[1], [2]]).Perm [[49], [50]] := by decide +kernel
  have e2 : readTwo [[2], [1]] = (readTwo [[1], [2]]).reverse := by decide +kernel
  have e3 : readTwo [[1], [2]] = [[49], [50]] ∨ readTwo [[1], [2]] = [[50], [49]] := by decide +kernel
  by_cases h1 : (readTwo [[1], [2]]).Pairwise le
  · refine ⟨[[2], [1]], List.Perm.swap _ _ _, fun h2 => h ?_⟩
    rw [e2] at h2
    rcases e3 with e | e <;> rw [e] at h1 h2 <;> simp at h1 h2
    · exact ⟨h1, h2⟩
    · exact ⟨h2, h1⟩
  · exact ⟨_, List.Perm.refl _, h1⟩

/-- File 1 holds "a" and "b", file 2 holds "aa". -/
def threeStrings (n : Bytes) : Option Bytes :=
  if n = [1] then fileOf [[97], [98]] else if n = [2] then fileOf [[97, 97]] else none

example : Hold threeStrings [[1], [2]] [[[97], [98]], [[97, 97]]] ∧
    ∀ rs ∈ [[[97], [98]], [[97, 97]]], rs.Pairwise upTo :=
  ⟨.cons ⟨by simp [threeStrings], by decide⟩ (.cons ⟨by simp [threeStrings], by decide⟩ .nil),
    by decide⟩

example :
    let m := ((Merge.init : Merge Bytes).openDefault threeStrings [[1], [2]] stringKey).2
    (m.readAll 1 minPick (m.size + 1)).1 = [([97], 0), ([97, 97], 1), ([98], 0)] := by decide +kernel

example : upTo [97] [97, 97] ∧ upTo [97, 97] [98] ∧ ¬ upTo [98] [97, 97] := by decide

/-- Files without any order are read completely by a reader of integers. -/
example : Hold twoFiles [[2], [1]] [[[50]], [[49]]] :=
  .cons ⟨by simp [twoFiles], by decide⟩ (.cons ⟨by simp [twoFiles], by decide⟩ .nil)

end PJC.Rec
