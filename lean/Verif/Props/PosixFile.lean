import Verif.Model.PosixFile
import Mathlib.Tactic.Common
import Mathlib.Algebra.BigOperators.Group.List.Basic
/-
C92: the life of a file object.
-/
namespace PJC.File
open PJC.Rec

/-! ### Specification -/

/-- Every call of the C library but `fclose` succeeds. -/
def Works (D : Device) : Prop := ∀ n, D.dev.ok n = true

/-- Every `fclose` succeeds. -/
def Closes (D : Device) : Prop := ∀ n, D.closes n = true

/-- The full property: no sequence of calls on a file object, followed by its destruction, is
undefined. -/
def C92Statement : Prop :=
  ∀ (D : Device) (w : World) (calls : List Call),
    .ub ∉ ((PFile.new w).run D calls).1 ∧ (((PFile.new w).run D calls).2.destroy D).1 ≠ .ub

/-- Successive `Read` calls. -/
def readMany (D : Device) : List Nat → PFile → List (Res Bytes) × PFile
  | [], p => ([], p)
  | n :: ns, p =>
    let (r, p) := p.read D n
    let (rs, p) := readMany D ns p
    (r :: rs, p)

/-! ### Theorems -/

/-- It fails: when `fclose` reports an error (a full disk, say) the pointer to the stream is kept,
and the destructor closes the stream a second time. -/
theorem C92_fails : ¬ C92Statement := by
  intro h
  have := (h ⟨Faults.none, fun _ => false⟩ ⟨fun _ => none, 0⟩ [.open (str "f") .w, .close]).2
  exact this rfl

/-- The pointer and the number of open streams. -/
def Inv (p : PFile) : Prop :=
  match p.f with
  | .null => p.live = 0
  | .stream _ => p.live = 1
  | .dangling => p.live = 0

theorem call_inv (D : Device) (c : Call) (p : PFile) (h : Inv p) : Inv (p.call D c).2 := by
  obtain ⟨f, w, live⟩ := p
  cases f with
  | null =>
    simp only [Inv] at h
    subst h
    cases c with
    | «open» name mode =>
      simp only [PFile.call, PFile.open]
      split
      · cases mode with
        | w => rfl
        | r => dsimp only; split <;> rfl
      · rfl
    | _ => simp [PFile.call, PFile.close, PFile.hasMore, PFile.read, PFile.readLine, PFile.write, Inv]
  | dangling =>
    simp only [Inv] at h
    subst h
    cases c <;>
      simp [PFile.call, PFile.open, PFile.close, PFile.hasMore, PFile.read, PFile.readLine,
        PFile.write, Inv]
  | stream s =>
    simp only [Inv] at h
    subst h
    cases c with
    | «open» name mode => rfl
    | close => simp only [PFile.call, PFile.close]; split <;> rfl
    | hasMore =>
      simp only [PFile.call, PFile.hasMore]
      split
      · rfl
      · split
        · rfl
        · split
          · rfl
          · split <;> rfl
    | read n =>
      simp only [PFile.call, PFile.read]
      split
      · rfl
      · split
        · rfl
        · split <;> rfl
    | readLine =>
      simp only [PFile.call, PFile.readLine]
      split
      · rfl
      · split <;> rfl
    | write content =>
      simp only [PFile.call, PFile.write]
      split
      · rfl
      · split
        · rfl
        · split
          · rfl
          · split <;> rfl

theorem run_inv (D : Device) : ∀ (cs : List Call) (p : PFile), Inv p → Inv (p.run D cs).2
  | [], _, h => h
  | c :: cs, p, h => run_inv D cs (p.call D c).2 (call_inv D c p h)

theorem readLine_status (s : Stream) : s.readLine.1 ≠ .ub ∧ s.readLine.1 ≠ .crash := by
  unfold Stream.readLine
  split
  · simp
  · dsimp only
    split
    · split <;> simp
    · simp

/-- With every `fclose` succeeding, a call neither is undefined nor leaves a dangling pointer. -/
theorem call_safe (D : Device) (hD : Closes D) (c : Call) (p : PFile) (h : p.f ≠ .dangling) :
    (p.call D c).1 ≠ .ub ∧ (p.call D c).1 ≠ .crash ∧ (p.call D c).2.f ≠ .dangling := by
  obtain ⟨f, w, live⟩ := p
  cases f with
  | dangling => exact absurd rfl h
  | null =>
    cases c with
    | «open» name mode =>
      simp only [PFile.call, PFile.open]
      split
      · cases mode with
        | w => simp
        | r => dsimp only; split <;> simp
      · simp
    | _ => simp [PFile.call, PFile.close, PFile.hasMore, PFile.read, PFile.readLine, PFile.write,
        statusOf]
  | stream s =>
    cases c with
    | «open» name mode => simp [PFile.call, PFile.open]
    | close => simp [PFile.call, PFile.close, hD w.tick]
    | hasMore =>
      simp only [PFile.call, PFile.hasMore]
      split
      · simp [statusOf]
      · split
        · simp [statusOf]
        · split
          · simp [statusOf]
          · split <;> simp [statusOf]
    | read n =>
      simp only [PFile.call, PFile.read]
      split
      · simp [statusOf]
      · split
        · simp [statusOf]
        · split <;> simp [statusOf]
    | readLine =>
      simp only [PFile.call, PFile.readLine]
      split
      · simp [statusOf]
      · split
        · simp [statusOf]
        · obtain ⟨h1, h2⟩ := readLine_status ⟨s.rest, s.eof⟩
          refine ⟨?_, ?_, by simp⟩ <;>
            cases hr : (Stream.readLine ⟨s.rest, s.eof⟩).1 <;> simp_all [statusOf]
    | write content =>
      simp only [PFile.call, PFile.write, lt_irrefl, if_false]
      split
      · simp
      · split
        · simp
        · split <;> simp

theorem run_safe (D : Device) (hD : Closes D) : ∀ (cs : List Call) (p : PFile), p.f ≠ .dangling →
    (∀ r ∈ (p.run D cs).1, r ≠ .ub ∧ r ≠ .crash) ∧ (p.run D cs).2.f ≠ .dangling
  | [], _, h => ⟨by simp [PFile.run], h⟩
  | c :: cs, p, h => by
    obtain ⟨h1, h2, h3⟩ := call_safe D hD c p h
    obtain ⟨h4, h5⟩ := run_safe D hD cs _ h3
    refine ⟨?_, h5⟩
    intro r hr
    simp only [PFile.run, List.mem_cons] at hr
    rcases hr with rfl | hr
    · exact ⟨h1, h2⟩
    · exact h4 r hr

/-- **C92**, partial: with every `fclose` succeeding, whatever the other calls of the C library
do, every sequence of calls and the destruction are defined, and no call aborts.  Missing from
the full statement: a failing `fclose` (`C92_fails`). -/
theorem C92_safe_partial (D : Device) (hD : Closes D) (w : World) (calls : List Call) :
    (∀ r ∈ ((PFile.new w).run D calls).1, r ≠ .ub ∧ r ≠ .crash) ∧
      (((PFile.new w).run D calls).2.destroy D).1 = .ok () := by
  obtain ⟨h1, h2⟩ := run_safe D hD calls (PFile.new w) (by simp [PFile.new])
  refine ⟨h1, ?_⟩
  generalize ((PFile.new w).run D calls).2 = p at h2
  obtain ⟨f, w, live⟩ := p
  cases f with
  | null => rfl
  | dangling => exact absurd rfl h2
  | stream s => simp [PFile.destroy, PFile.close, hD w.tick]

/-- **C92**: no stream is leaked, whatever fails: at most one is open at a time, and after the
destruction none is (unless the destruction was undefined). -/
theorem C92_no_leak (D : Device) (w : World) (calls : List Call) :
    ((PFile.new w).run D calls).2.live ≤ 1 ∧
    ((((PFile.new w).run D calls).2.destroy D).1 ≠ .ub →
      (((PFile.new w).run D calls).2.destroy D).2.live = 0) := by
  have h := run_inv D calls (PFile.new w) rfl
  generalize ((PFile.new w).run D calls).2 = p at h
  obtain ⟨f, w, live⟩ := p
  cases f with
  | null => simp only [Inv] at h; subst h; simp [PFile.destroy]
  | dangling => simp only [Inv] at h; subst h; simp [PFile.destroy, PFile.close]
  | stream s =>
    simp only [Inv] at h; subst h
    refine ⟨le_refl _, fun _ => ?_⟩
    simp only [PFile.destroy, PFile.close]
    by_cases hc : D.closes w.tick = true
    · rw [if_pos hc]
    · rw [if_neg hc]

/-- **C92**: without an open file every call but `Open` returns INTERNAL, and `Open` with a file
open returns INTERNAL; nothing changes. -/
theorem C92_wrong_state (D : Device) (p : PFile) :
    (p.f = .null → ∀ c, (∀ name mode, c ≠ .open name mode) → p.call D c = (.err .internal, p)) ∧
    (∀ s, p.f = .stream s → ∀ name mode, p.call D (.open name mode) = (.err .internal, p)) := by
  obtain ⟨f, w, live⟩ := p
  constructor
  · intro h c hc
    simp only at h
    subst h
    cases c with
    | «open» name mode => exact absurd rfl (hc name mode)
    | _ => rfl
  · intro s h name mode
    simp only at h
    subst h
    rfl

/-- **C92**: opening. A file that does not exist cannot be read (NOT_FOUND); otherwise, if the
system opens it, reading starts with its content unchanged, and writing starts with an empty
file. -/
theorem C92_open (D : Device) (w : World) (name : Bytes) :
    (w.files name = none → ((PFile.new w).open D name .r).1 = .err .notFound) ∧
    (D.dev.ok w.tick = false → ∀ mode, ((PFile.new w).open D name mode).1 = .err .notFound ∧
      ((PFile.new w).open D name mode).2.world.files = w.files) ∧
    (D.dev.ok w.tick = true →
      ((PFile.new w).open D name .w).1 = .ok () ∧
      (((PFile.new w).open D name .w).2.world.files name = some []) ∧
      (∀ c, w.files name = some c → ((PFile.new w).open D name .r).1 = .ok () ∧
        ((PFile.new w).open D name .r).2.world.files = w.files)) := by
  refine ⟨fun h => ?_, fun h mode => ?_, fun h => ⟨?_, ?_, fun c hc => ?_⟩⟩
  · simp only [PFile.new, PFile.open, h]; split <;> rfl
  · simp [PFile.new, PFile.open, h, World.next]
  · simp [PFile.new, PFile.open, h]
  · simp [PFile.new, PFile.open, h, World.set]
  · simp [PFile.new, PFile.open, h, hc, World.next]

theorem readMany_spec (D : Device) (hD : Works D) : ∀ (ns : List Nat) (s : FStream) (w : World)
    (live : Nat), s.write = false →
    let out := readMany D ns ⟨.stream s, w, live⟩
    if ns.sum ≤ s.rest.length then
      (∃ parts : List Bytes, out.1 = parts.map .ok ∧ parts.map List.length = ns ∧
        parts.flatten = s.rest.take ns.sum) ∧
      ∃ w', out.2 = ⟨.stream { s with rest := s.rest.drop ns.sum }, w', live⟩
    else .err .internal ∈ out.1
  | [], s, w, live, _ => by
    simp only [List.sum_nil, Nat.zero_le, if_true, readMany]
    exact ⟨⟨[], by simp, by simp, by simp⟩, w, by simp⟩
  | n :: ns, ⟨name, wr, rest, eof, bad⟩, w, live, hw => by
    have hd := hD w.tick
    simp only at hw
    subst hw
    simp only [readMany, PFile.read, hd, Bool.not_true, Bool.false_eq_true, or_self, if_false,
      List.sum_cons]
    by_cases h0 : n = 0
    · subst h0
      have ih := readMany_spec D hD ns ⟨name, false, rest, eof, bad⟩ w live rfl
      simp only [if_true, Nat.zero_add]
      simp only at ih
      by_cases hs : ns.sum ≤ rest.length
      · rw [if_pos hs] at ih
        rw [if_pos hs]
        obtain ⟨⟨parts, h1, h2, h3⟩, h4⟩ := ih
        exact ⟨⟨[] :: parts, by rw [h1]; rfl, by simp [h2], by simpa using h3⟩, h4⟩
      · rw [if_neg hs] at ih
        rw [if_neg hs]
        exact List.mem_cons_of_mem _ ih
    simp only [if_neg h0]
    by_cases hn : n ≤ rest.length
    · rw [if_pos hn]
      have ih := readMany_spec D hD ns ⟨name, false, rest.drop n, eof, bad⟩ w.next live rfl
      simp only [List.length_drop] at ih
      by_cases hs : n + ns.sum ≤ rest.length
      · rw [if_pos (by omega)] at ih
        rw [if_pos hs]
        obtain ⟨⟨parts, h1, h2, h3⟩, w', h4⟩ := ih
        refine ⟨⟨rest.take n :: parts, ?_, ?_, ?_⟩, w', ?_⟩
        · dsimp only; rw [h1]; rfl
        · simp [h2, hn]
        · rw [List.flatten_cons, h3, List.take_add]
        · dsimp only; rw [h4, List.drop_drop]
      · rw [if_neg (by omega)] at ih
        rw [if_neg hs]
        exact List.mem_cons_of_mem _ ih
    · rw [if_neg hn, if_neg (by omega)]
      exact List.mem_cons_self ..

/-- **C92**: `Read` calls return consecutive pieces of the file of the lengths asked for, and
`HasMore` then says whether something is left; asking for more than there is fails with
INTERNAL. -/
theorem C92_reads (D : Device) (hD : Works D) (w : World) (name content : Bytes)
    (hf : w.files name = some content) (ns : List Nat) :
    let p := ((PFile.new w).open D name .r).2
    let out := readMany D ns p
    (ns.sum ≤ content.length →
      (∃ parts : List Bytes, out.1 = parts.map .ok ∧ parts.map List.length = ns ∧
        parts.flatten = content.take ns.sum) ∧
      (out.2.hasMore D).1 = .ok (decide (ns.sum < content.length))) ∧
    (content.length < ns.sum → .err .internal ∈ out.1) := by
  have hp : ((PFile.new w).open D name .r).2 =
      ⟨.stream ⟨name, false, content, false, false⟩, w.next, 1⟩ := by
    simp [PFile.new, PFile.open, hD w.tick, hf]
  have h := readMany_spec D hD ns ⟨name, false, content, false, false⟩ w.next 1 rfl
  dsimp only at h ⊢
  rw [hp]
  by_cases hs : ns.sum ≤ content.length
  · rw [if_pos hs] at h
    obtain ⟨h1, w', h2⟩ := h
    refine ⟨fun _ => ⟨h1, ?_⟩, fun hc => by omega⟩
    rw [h2]
    have hd := hD w'.tick
    simp only [PFile.hasMore, Bool.false_eq_true, if_false, hd, Bool.not_true, or_self]
    cases hr : content.drop ns.sum with
    | nil =>
      have := congrArg List.length hr
      simp only [List.length_drop, List.length_nil] at this
      simp; omega
    | cons b r =>
      have := congrArg List.length hr
      simp only [List.length_drop, List.length_cons] at this
      simp; omega
  · rw [if_neg hs] at h
    exact ⟨fun hc => absurd hc hs, fun _ => h⟩

theorem writes_spec (D : Device) (hD : Works D) (hC : Closes D) (name : Bytes) :
    ∀ (cs : List Bytes) (w : World) (c : Bytes) (s : FStream), s.name = name → s.write = true →
    w.files name = some c →
    let out := PFile.run D (cs.map Call.write ++ [.close]) ⟨.stream s, w, 1⟩
    (∀ r ∈ out.1, r = .ok ()) ∧ out.2.f = .null ∧
      out.2.world.files = fun n => if n = name then some (c ++ cs.flatten) else w.files n
  | [], w, c, s, hn, _, hw => by
    simp only [List.map_nil, List.nil_append, PFile.run, PFile.call, PFile.close, hC w.tick, if_true,
      List.flatten_nil, List.append_nil, List.mem_singleton, forall_eq, World.next, true_and]
    funext n
    split
    · next h => rw [h, hw]
    · rfl
  | b :: cs, w, c, s, hn, hs, hw => by
    by_cases h0 : b = []
    · subst h0
      obtain ⟨h1, h2, h3⟩ := writes_spec D hD hC name cs w c s hn hs hw
      simp only [List.map_cons, List.cons_append, PFile.run, PFile.call, PFile.write, lt_irrefl,
        if_false, List.length_nil, if_true, List.flatten_cons, List.nil_append]
      refine ⟨?_, h2, h3⟩
      intro r hr
      rcases List.mem_cons.1 hr with rfl | hr
      · rfl
      · exact h1 r hr
    have h0' : b.length ≠ 0 := fun h => h0 (List.length_eq_zero_iff.1 h)
    have ih := writes_spec D hD hC name cs (w.set name (some (c ++ b))) (c ++ b) s hn hs
      (by simp [World.set])
    simp only [List.map_cons, List.cons_append, PFile.run, PFile.call, PFile.write, lt_irrefl,
      if_false, h0', hs, Bool.not_true, Bool.false_eq_true, hD w.tick, if_true, hn, hw,
      Option.getD_some, List.take_length]
    obtain ⟨h1, h2, h3⟩ := ih
    refine ⟨?_, h2, ?_⟩
    · intro r hr
      rcases List.mem_cons.1 hr with rfl | hr
      · rfl
      · exact h1 r hr
    · rw [h3]
      funext n
      simp only [World.set, List.flatten_cons, List.append_assoc]
      split <;> simp_all

/-- **C92**: when nothing fails, a file that is opened for writing, written to and closed contains
what was written, in order, and no other file is changed. -/
theorem C92_writes (D : Device) (hD : Works D) (hC : Closes D) (w : World) (name : Bytes)
    (cs : List Bytes) :
    let out := (PFile.new w).run D (.open name .w :: (cs.map Call.write ++ [.close]))
    (∀ r ∈ out.1, r = .ok ()) ∧
      out.2.world.files = fun n => if n = name then some cs.flatten else w.files n := by
  have hp : (PFile.new w).open D name .w =
      (.ok (), ⟨.stream ⟨name, true, [], false, false⟩, w.set name (some []), 1⟩) := by
    simp [PFile.new, PFile.open, hD w.tick]
  have h := writes_spec D hD hC name cs (w.set name (some [])) []
    ⟨name, true, [], false, false⟩ rfl rfl (by simp [World.set])
  simp only [PFile.run, PFile.call, hp] at h ⊢
  obtain ⟨h1, -, h3⟩ := h
  refine ⟨?_, ?_⟩
  · intro r hr
    rcases List.mem_cons.1 hr with rfl | hr
    · rfl
    · exact h1 r hr
  · rw [h3]
    funext n
    simp only [World.set, List.nil_append]
    split <;> simp_all

/-- A write with a length beyond the content reads memory that is not the content's; with the
length of the content (as in recordio.cc) it never does. -/
theorem C92_write_length (D : Device) (p : PFile) (s : FStream) (hp : p.f = .stream s)
    (content : Bytes) (n : Nat) : (p.write D content n).1 = .ub ↔ content.length < n := by
  simp only [PFile.write, hp]
  split
  · simp [*]
  · split
    · simp; omega
    · split
      · simp; omega
      · split <;> (simp; omega)

/-- Calls other than `Open` report every error as INTERNAL; `Open` reports NOT_FOUND or, with a file
already open, INTERNAL. -/
theorem C92_codes (D : Device) (p : PFile) (c : Call) (e : Code)
    (h : (p.call D c).1 = .err e) :
    e = .internal ∨ (e = .notFound ∧ ∃ name mode, c = .open name mode) := by
  obtain ⟨f, w, live⟩ := p
  cases c with
  | «open» name mode =>
    cases f with
    | null =>
      simp only [PFile.call, PFile.open] at h
      split at h
      · cases mode with
        | w => cases h
        | r =>
          dsimp only at h
          split at h
          · cases h
          · cases h; exact .inr ⟨rfl, _, _, rfl⟩
      · cases h; exact .inr ⟨rfl, _, _, rfl⟩
    | _ => cases h; exact .inl rfl
  | close =>
    cases f with
    | stream s =>
      simp only [PFile.call, PFile.close] at h
      split at h <;> cases h
      exact .inl rfl
    | null => cases h; exact .inl rfl
    | dangling => cases h
  | hasMore =>
    cases f with
    | stream s =>
      simp only [PFile.call, PFile.hasMore] at h
      split at h
      · cases h
      split at h
      · cases h; exact .inl rfl
      split at h
      · cases h; exact .inl rfl
      split at h <;> cases h
    | null => cases h; exact .inl rfl
    | dangling => cases h
  | read n =>
    cases f with
    | stream s =>
      simp only [PFile.call, PFile.read] at h
      split at h
      · cases h
      split at h
      · cases h; exact .inl rfl
      split at h <;> cases h
      exact .inl rfl
    | null => cases h; exact .inl rfl
    | dangling => cases h
  | readLine =>
    cases f with
    | stream s =>
      simp only [PFile.call, PFile.readLine] at h
      split at h
      · cases h; exact .inl rfl
      split at h
      · cases h; exact .inl rfl
      · unfold Stream.readLine at h
        split at h
        · cases h; exact .inl rfl
        · dsimp only at h
          split at h
          · split at h <;> cases h
          · cases h
    | null => cases h; exact .inl rfl
    | dangling => cases h
  | write content =>
    cases f with
    | stream s =>
      simp only [PFile.call, PFile.write] at h
      split at h
      · cases h
      split at h
      · cases h
      split at h
      · cases h; exact .inl rfl
      split at h <;> cases h
      exact .inl rfl
    | null => cases h; exact .inl rfl
    | dangling => cases h

/-- **C92**: the destructor does not report, and does not die from, a failing `fclose`; without an open
file it does nothing. -/
theorem C92_destroy (D : Device) (w : World) (live : Nat) :
    (∀ s, ((PFile.mk (.stream s) w live).destroy D).1 = .ok ()) ∧
    (PFile.mk .null w live).destroy D = (.ok (), PFile.mk .null w live) := by
  refine ⟨fun s => ?_, rfl⟩
  simp only [PFile.destroy, PFile.close]
  split <;> rename_i h <;> split at h <;> simp_all

/-- What is asked of the stream: reading or writing; nothing by `Read` and `Write` of no bytes. -/
def Call.needs : Call → Option Bool
  | .hasMore => some false
  | .read n => if n = 0 then none else some false
  | .readLine => some false
  | .write content => if content = [] then none else some true
  | _ => none

/-- **C92**: `Read` and `Write` of no bytes on an open file succeed and change nothing, whatever the
file was opened for, whatever went wrong before and whatever the device does. -/
theorem C92_nothing (D : Device) (s : FStream) (w : World) (live : Nat) :
    (PFile.mk (.stream s) w live).read D 0 = (.ok [], ⟨.stream s, w, live⟩) ∧
    ∀ content, (PFile.mk (.stream s) w live).write D content 0 = (.ok (), ⟨.stream s, w, live⟩) :=
  ⟨rfl, fun content => by simp [PFile.write]⟩

/-- **C92**: a call that reads from a file opened for writing, or writes to one opened for reading,
or meets a failing device, returns INTERNAL (`Read` and `Write` of no bytes do neither: `C92_nothing`) (except `HasMore` at the end of the file, which does
not look at the file); and from then on, whatever the device does, `ReadLine` returns INTERNAL, and
so does `HasMore` unless the end of the file was met before. -/
theorem C92_errors_stick (D : Device) (s : FStream) (w : World) (live : Nat) (c : Call) (wr : Bool)
    (hc : c.needs = some wr) (hbad : s.write ≠ wr ∨ D.dev.ok w.tick = false)
    (heof : c = .hasMore → s.eof = false) :
    (PFile.call D c ⟨.stream s, w, live⟩).1 = .err .internal ∧
    ∀ D', (PFile.call D' .readLine (PFile.call D c ⟨.stream s, w, live⟩).2).1 = .err .internal ∧
      (s.eof = false →
        (PFile.call D' .hasMore (PFile.call D c ⟨.stream s, w, live⟩).2).1 = .err .internal) := by
  have key : ∀ (D' : Device) (s' : FStream) (w' : World), s'.bad = true →
      (PFile.call D' .readLine ⟨.stream s', w', live⟩).1 = .err .internal ∧
      (s'.eof = false → (PFile.call D' .hasMore ⟨.stream s', w', live⟩).1 = .err .internal) := by
    intro D' s' w' hb
    constructor
    · simp only [PFile.call, PFile.readLine, hb, if_true]
      split <;> rfl
    · intro he
      simp [PFile.call, PFile.hasMore, hb, he, statusOf]
  cases c with
  | «open» _ _ => cases hc
  | close => cases hc
  | hasMore =>
    cases hc
    have hif : s.write = true ∨ (!D.dev.ok w.tick) = true := by
      rcases hbad with h | h
      · left; simpa using h
      · right; simp [h]
    have he := heof rfl
    by_cases hb : s.bad = true
    · have e : PFile.call D .hasMore ⟨.stream s, w, live⟩ =
          (.err .internal, ⟨.stream s, w, live⟩) := by
        simp [PFile.call, PFile.hasMore, he, hb, statusOf]
      rw [e]
      exact ⟨rfl, fun D' => key D' s w hb⟩
    · have e : PFile.call D .hasMore ⟨.stream s, w, live⟩ =
          (.err .internal, ⟨.stream { s with bad := true }, w.next, live⟩) := by
        simp only [PFile.call, PFile.hasMore, he, hb, hif, if_true, if_false, statusOf,
          Bool.false_eq_true]
      rw [e]
      exact ⟨rfl, fun D' => key D' _ _ rfl⟩
  | read n =>
    have h0 : n ≠ 0 := by rintro rfl; simp [Call.needs] at hc
    simp only [Call.needs, if_neg h0] at hc
    cases hc
    have hif : s.write = true ∨ (!D.dev.ok w.tick) = true := by
      rcases hbad with h | h
      · left; simpa using h
      · right; simp [h]
    simp only [PFile.call, PFile.read, h0, hif, if_true, if_false]
    exact ⟨rfl, fun D' => key D' { s with bad := true, rest := _ } _ rfl⟩
  | readLine =>
    cases hc
    have hif : s.write = true ∨ (!D.dev.ok w.tick) = true := by
      rcases hbad with h | h
      · left; simpa using h
      · right; simp [h]
    have e : PFile.call D .readLine ⟨.stream s, w, live⟩ = (.err .internal,
        ⟨.stream { s with bad := true, rest := s.rest.drop (D.dev.kept w.tick) }, w.next, live⟩) := by
      simp only [PFile.call, PFile.readLine, hif, if_true, statusOf]
    rw [e]
    exact ⟨rfl, fun D' => key D' _ _ rfl⟩
  | write content =>
    have h0 : content ≠ [] := by rintro rfl; simp [Call.needs] at hc
    simp only [Call.needs, if_neg h0] at hc
    cases hc
    by_cases hw : s.write = true
    · have hd : D.dev.ok w.tick = false := by
        rcases hbad with h | h
        · exact absurd hw h
        · exact h
      have e : PFile.call D (.write content) ⟨.stream s, w, live⟩ = (.err .internal,
          ⟨.stream { s with bad := true }, w.set s.name (some (((w.files s.name).getD [] ++
            content.take content.length).take (D.dev.kept w.tick))), live⟩) := by
        simp [PFile.call, PFile.write, hw, hd, h0]
      rw [e]
      exact ⟨rfl, fun D' => key D' _ _ rfl⟩
    · have e : PFile.call D (.write content) ⟨.stream s, w, live⟩ = (.err .internal,
          ⟨.stream { s with bad := true }, w.next, live⟩) := by
        simp [PFile.call, PFile.write, hw, h0]
      rw [e]
      exact ⟨rfl, fun D' => key D' _ _ rfl⟩

/-- A write to a file opened for reading changes no file. -/
theorem C92_write_to_reader (D : Device) (s : FStream) (w : World) (live : Nat)
    (hs : s.write = false) (content : Bytes) :
    (PFile.call D (.write content) ⟨.stream s, w, live⟩).2.world.files = w.files := by
  simp only [PFile.call, PFile.write, hs, lt_irrefl, if_false, Bool.not_false, if_true]
  split <;> rfl

/-- **C92**: once `HasMore` has said that nothing is left, or a `Read` asked for more than was left,
`HasMore` says so again, whatever the device does meanwhile. -/
theorem C92_end_sticks (D : Device) (s : FStream) (w : World) (live n : Nat) :
    (((PFile.mk (.stream s) w live).hasMore D).1 = .ok false →
      ∀ D', (((PFile.mk (.stream s) w live).hasMore D).2.hasMore D').1 = .ok false) ∧
    (s.write = false → D.dev.ok w.tick = true → s.rest.length < n →
      ∀ D', (((PFile.mk (.stream s) w live).read D n).2.hasMore D').1 = .ok false) := by
  constructor
  · intro h D'
    simp only [PFile.hasMore] at h ⊢
    by_cases he : s.eof = true
    · simp [he]
    by_cases hb : s.bad = true
    · simp [he, hb] at h
    by_cases hif : s.write = true ∨ (!D.dev.ok w.tick) = true
    · simp only [he, hb, hif, if_true, if_false, Bool.false_eq_true] at h
      cases h
    simp only [he, hb, hif, if_false, Bool.false_eq_true] at h ⊢
    split at h
    · rfl
    · cases h
  · intro hw hd hn D'
    simp [PFile.read, hw, hd, Nat.not_le.2 hn, Nat.ne_of_gt (Nat.zero_lt_of_lt hn), PFile.hasMore]

/-! ### The parts used for records agree -/

/-- The file object and the model of it used for the record writers. -/
structure Agree (o : Out) (p : PFile) : Prop where
  world : p.world = o.world
  null : o.handle = none → p.f = .null
  stream : ∀ name, o.handle = some name → ∃ s, p.f = .stream s ∧ s.name = name ∧ s.write = true

theorem agree_open {Ω : Faults} {D : Device} (hD : D.dev = Ω) {o : Out} {p : PFile}
    (h : Agree o p) (name : Bytes) :
    (p.open D name .w).1 = (o.open Ω name).1 ∧ Agree (o.open Ω name).2 (p.open D name .w).2 := by
  obtain ⟨f, w, live⟩ := p
  obtain ⟨hd, w'⟩ := o
  obtain ⟨h1, h2, h3⟩ := h
  simp only at h1 h2 h3
  subst h1 hD
  cases hd with
  | none =>
    rw [h2 rfl]
    simp only [PFile.open, Out.open]
    by_cases hok : D.dev.ok w.tick = true
    · simp only [hok, if_true, true_and]
      exact ⟨rfl, by simp, by simp⟩
    · simp only [hok, Bool.false_eq_true, if_false, true_and]
      exact ⟨rfl, by simp, by simp⟩
  | some n =>
    obtain ⟨s, rfl, h4, h5⟩ := h3 n rfl
    refine ⟨rfl, rfl, by simp [Out.open], ?_⟩
    intro n' hn
    simp only [Out.open, Option.some.injEq] at hn
    subst hn
    exact ⟨s, rfl, h4, h5⟩

/-- Both write the same; a write of nothing, which does nothing, is taken by the record model to depend
on the device. -/
theorem agree_write {Ω : Faults} {D : Device} (hD : D.dev = Ω) {o : Out} {p : PFile}
    (h : Agree o p) (bs : Bytes) (hbs : bs ≠ []) :
    (p.write D bs bs.length).1 = (o.write Ω bs).1 ∧
      Agree (o.write Ω bs).2 (p.write D bs bs.length).2 := by
  obtain ⟨f, w, live⟩ := p
  obtain ⟨hd, w'⟩ := o
  obtain ⟨h1, h2, h3⟩ := h
  simp only at h1 h2 h3
  subst h1 hD
  cases hd with
  | none =>
    rw [h2 rfl]
    exact ⟨rfl, rfl, by simp [PFile.write], by simp [Out.write]⟩
  | some n =>
    obtain ⟨s, rfl, h4, h5⟩ := h3 n rfl
    subst h4
    have h0 : bs.length ≠ 0 := fun h => hbs (List.length_eq_zero_iff.1 h)
    simp only [PFile.write, Out.write, lt_irrefl, if_false, h0, h5, Bool.not_true, Bool.false_eq_true,
      List.take_length]
    by_cases hok : D.dev.ok w.tick = true
    · simp only [hok, if_true, true_and]
      exact ⟨rfl, by simp, fun n' hn => ⟨s, rfl, by simpa using hn, h5⟩⟩
    · simp only [hok, Bool.false_eq_true, if_false, true_and]
      exact ⟨rfl, by simp, fun n' hn => ⟨_, rfl, by simpa using hn, rfl⟩⟩

/-- Closing gives the same status; they still agree if it succeeds.  (After a failed `fclose` the
record model says only that the file is not closed: `C92_fails`.) -/
theorem agree_close {Ω : Faults} {D : Device} (hD : D.dev = Ω) (hC : D.closes = Ω.ok) {o : Out}
    {p : PFile} (h : Agree o p) :
    (p.close D).1 = (o.close Ω).1 ∧ (p.close D).2.world = (o.close Ω).2.world ∧
      ((o.close Ω).1 = .ok () → Agree (o.close Ω).2 (p.close D).2) := by
  obtain ⟨f, w, live⟩ := p
  obtain ⟨hd, w'⟩ := o
  obtain ⟨h1, h2, h3⟩ := h
  simp only at h1 h2 h3
  subst h1 hD
  cases hd with
  | none =>
    rw [h2 rfl]
    exact ⟨rfl, rfl, by simp [Out.close]⟩
  | some n =>
    obtain ⟨s, rfl, h4, h5⟩ := h3 n rfl
    subst h4
    simp only [PFile.close, Out.close, hC]
    by_cases hok : D.dev.ok w.tick = true
    · simp only [hok, if_true, true_and, forall_const]
      exact ⟨rfl, by simp, by simp⟩
    · simp only [hok, Bool.false_eq_true, if_false, true_and]
      refine ⟨?_, by simp⟩
      simp [closedBadly, h5]

/-- What the readers see of an open file agrees too, when the device works. -/
theorem agree_reader (D : Device) (hD : Works D) (s : FStream) (hw : s.write = false)
    (hb : s.bad = false) (w : World) (live n : Nat) :
    ((PFile.mk (.stream s) w live).read D n).1 = (Stream.read n ⟨s.rest, s.eof⟩).1 ∧
    ((PFile.mk (.stream s) w live).hasMore D).1 = .ok (Stream.hasMore ⟨s.rest, s.eof⟩).1 ∧
    ((PFile.mk (.stream s) w live).readLine D).1 = (Stream.readLine ⟨s.rest, s.eof⟩).1 := by
  have hd := hD w.tick
  refine ⟨?_, ?_, ?_⟩
  · simp only [PFile.read, hw, hd, Bool.not_true, Bool.false_eq_true, or_self, if_false, Stream.read]
    split
    · next h => subst h; simp
    · split <;> rfl
  · simp only [PFile.hasMore, hw, hb, hd, Bool.not_true, Bool.false_eq_true, or_self, if_false,
      Stream.hasMore]
    split
    · rfl
    · cases s.rest <;> rfl
  · simp [PFile.readLine, hw, hb, hd]

/-! ### The hypotheses are met -/

/-- A device that never fails, and a file system with one file. -/
def goodDevice : Device := ⟨Faults.none, fun _ => true⟩
def oneFile : World := ⟨fun n => if n = str "f" then some (str "abcde") else none, 0⟩

example : Works goodDevice ∧ Closes goodDevice := ⟨fun _ => rfl, fun _ => rfl⟩

-- reading in pieces, past the end, calls in the wrong state
example : ((PFile.new oneFile).run goodDevice
    [.read 1, .open (str "f") .r, .read 2, .open (str "g") .r, .read 3, .hasMore, .read 1, .close,
      .close]).1 =
    [.err .internal, .ok (), .ok (), .err .internal, .ok (), .ok (), .err .internal, .ok (),
      .err .internal] := by decide +kernel

-- a file is opened only if it exists; after a failed open the next call is the next in the
-- schedule (here the second `fopen` fails, the others succeed)
example : ((PFile.new oneFile).run
    ⟨⟨fun n => decide (n ≠ 1), fun _ => 0⟩, fun _ => true⟩
    [.open (str "nofile") .r, .open (str "f") .r, .open (str "f") .r, .hasMore, .close]).1 =
    [.err .notFound, .err .notFound, .ok (), .ok (), .ok ()] := by decide +kernel

-- reading from a file opened for writing fails, and so does everything after it until it is closed
example : ((PFile.new oneFile).run goodDevice
    [.open (str "f") .w, .read 1, .hasMore, .readLine, .write (str "x"), .close]).1 =
    [.ok (), .err .internal, .err .internal, .err .internal, .ok (), .ok ()] := by decide +kernel

-- reading and writing nothing asks nothing of the file, also after an error
example : ((PFile.new oneFile).run goodDevice
    [.read 0, .open (str "f") .w, .read 0, .read 1, .read 0, .write [], .close, .open (str "f") .r,
      .write [], .write (str "x"), .close]).1 =
    [.err .internal, .ok (), .ok (), .err .internal, .ok (), .ok (), .ok (), .ok (), .ok (),
      .err .internal, .ok ()] := by decide +kernel

-- the device fails once, at the first `ReadLine`; the second one consumes the rest, but still fails
example : ((PFile.new oneFile).run ⟨⟨fun n => decide (n ≠ 1), fun _ => 0⟩, fun _ => true⟩
    [.open (str "f") .r, .readLine, .readLine, .hasMore, .read 2, .close]).1 =
    [.ok (), .err .internal, .err .internal, .ok (), .err .internal, .ok ()] := by decide +kernel

end PJC.File
