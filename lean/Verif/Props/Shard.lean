import Verif.Lemmas.Shard
/-
C42 - C46: the merging reader, the sharding writer and the shard merger.
-/
namespace PJC.Rec

set_option linter.unusedSectionVars false

variable {κ : Type} [LinearOrder κ]

/-! ### C42 -/

/-- A reader without open files: a new one or one that was closed. -/
def Merge.Closed (m : Merge κ) : Prop := m.readers = [] ∧ m.heap = []

/-- The files `names` hold the record lists `contents`, one each. -/
def Hold (files : Bytes → Option Bytes) (names : List Bytes) (contents : List (List Bytes)) : Prop :=
  List.Forall₂ (fun n rs => files n = fileOf rs ∧ ∀ r ∈ rs, r.length < 2 ^ 31) names contents

theorem Hold.split {files : Bytes → Option Bytes} {names : List Bytes}
    {contents : List (List Bytes)} (h : Hold files names contents) :
    List.Forall₂ (fun n rs => files n = some (fileBytes rs)) names contents ∧
      ∀ R ∈ contents, ∀ r ∈ R, r.length < 2 ^ 31 := by
  unfold Hold at h
  induction h with
  | nil => exact ⟨.nil, by simp⟩
  | cons h1 h2 ih =>
    refine ⟨.cons (by rw [h1.1, fileOf_eq h1.2]) ih.1, ?_⟩
    intro R hR
    rcases List.mem_cons.1 hR with rfl | hR
    · exact h1.2
    · exact ih.2 R hR

/-- **C42**.  A closed reader opened on files that are each sorted by key returns, through
"while HasMore: Read", every record exactly once and in nondecreasing key order; the records
of file `i` are returned with index `i` and in their order in the file.  Afterwards `Close`
succeeds and leaves the reader closed.  This holds for every choice the priority queue may
make among equal keys. -/
theorem C42_merge (key : Bytes → κ) (junk : Nat) (pick : Pick κ) (hp : pick.Min)
    (files : Bytes → Option Bytes) (names : List Bytes) (contents : List (List Bytes))
    (hf : Hold files names contents) (hs : ∀ rs ∈ contents, SortedBy key rs)
    (m0 : Merge κ) (h0 : m0.Closed) :
    ∃ m out m' m'', m0.open files names key = (.ok (), m) ∧
      m.readAll junk pick (m.size + 1) = (out, .ok (), m') ∧
      SortedBy key (out.map Prod.fst) ∧
      (out.map Prod.fst).Perm contents.flatten ∧
      (∀ i, (out.filter fun x => x.2 = i).map Prod.fst = contents.getD i []) ∧
      (∀ x ∈ out, x.2 < names.length) ∧
      m'.close = (.ok (), m'') ∧ m''.Closed := by
  obtain ⟨h1, h2⟩ := hf.split
  obtain ⟨m, out, m', e1, e2, e3, e4, e5, e6, e7⟩ := open_readAll junk hp h1 h2 hs m0 h0.1 h0.2
  exact ⟨m, out, m', _, e1, e2, e3, e6, e4, by rw [h1.length_eq]; exact e5, e7, rfl, rfl⟩

/-- `std::priority_queue` is a choice of a least element; the list minimum is one. -/
def minPick : Pick κ
  | [] => none
  | x :: xs => match minPick xs with
    | none => some (x, [])
    | some (y, ys) => if x.key ≤ y.key then some (x, xs) else some (y, x :: ys)

theorem minPick_min : Pick.Min (minPick (κ := κ)) := by
  refine ⟨rfl, ?_⟩
  intro h
  induction h with
  | nil => simp
  | cons x xs ih =>
    intro _
    by_cases hx : xs = []
    · subst hx
      exact ⟨x, [], rfl, List.Perm.refl _, by simp⟩
    · obtain ⟨y, ys, h1, h2, h3⟩ := ih hx
      by_cases hle : x.key ≤ y.key
      · refine ⟨x, xs, by simp [minPick, h1, hle], List.Perm.refl _, ?_⟩
        intro z hz
        rcases List.mem_cons.1 (h2.mem_iff.1 hz) with rfl | hz
        · exact hle
        · exact hle.trans (h3 z hz)
      · refine ⟨y, x :: ys, by simp [minPick, h1, hle], ?_, ?_⟩
        · exact (h2.cons x).trans (List.Perm.swap _ _ _)
        · intro z hz
          rcases List.mem_cons.1 hz with rfl | hz
          · exact le_of_not_ge hle
          · exact h3 z hz

/-- Keys for the examples: the length of the record. -/
def lenKey (r : Bytes) : Nat := r.length

/-- Three files, one of them empty, with equal keys across files. -/
example : ∃ m out m', (Merge.init : Merge Nat).open
      (fun n => if n = [1] then fileOf [[5], [6, 6]] else if n = [2] then fileOf [] else
        if n = [3] then fileOf [[], [7, 7]] else none) [[1], [2], [3]] lenKey = (.ok (), m) ∧
    m.readAll 1 minPick (m.size + 1) = (out, .ok (), m') ∧
    (out.map Prod.fst).Perm [[5], [6, 6], [], [7, 7]] ∧ SortedBy lenKey (out.map Prod.fst) := by
  obtain ⟨m, out, m', m'', h1, h2, h3, h4, -⟩ := C42_merge lenKey 1 minPick minPick_min
    (fun n => if n = [1] then fileOf [[5], [6, 6]] else if n = [2] then fileOf [] else
        if n = [3] then fileOf [[], [7, 7]] else none) [[1], [2], [3]]
    [[[5], [6, 6]], [], [[], [7, 7]]]
    (.cons ⟨by simp, by decide⟩ (.cons ⟨by simp, by decide⟩ (.cons ⟨by simp, by decide⟩ .nil)))
    (by simp [SortedBy, lenKey]) Merge.init ⟨rfl, rfl⟩
  exact ⟨m, out, m', h1, h2, by simpa using h4, h3⟩

/-! ### C43 -/

/-- What the English statement says: after a failed `Open` the reader can be opened on good
files. -/
def C43Statement (κ : Type) : Prop :=
  ∀ (m m' : Merge κ) (files : Bytes → Option Bytes) (names : List Bytes) (key : Bytes → κ)
    (e : Code), m.Closed → m.open files names key = (.err e, m') →
  ∀ (files' : Bytes → Option Bytes) (names' : List Bytes) (key' : Bytes → κ),
    (∀ n ∈ names', (files' n).isSome) → (m'.open files' names' key').1 = .ok ()

/-- The calls a user can make on a merging reader. -/
inductive Merge.Call (κ : Type)
  | open (files : Bytes → Option Bytes) (names : List Bytes) (key : Bytes → κ)
  | close
  | hasMore
  | read

/-- Whether a result is an error status. -/
def failed {α : Type} : Res α → Bool
  | .err _ => true
  | _ => false

/-- Whether the call returned an error, and the reader afterwards. -/
def Merge.call (junk : Nat) (pick : Pick κ) : Merge.Call κ → Merge κ → Bool × Merge κ
  | .open files names key, m => let (r, m) := m.open files names key; (failed r, m)
  | .close, m => let (r, m) := m.close; (failed r, m)
  | .hasMore, m => let (r, m) := m.hasMore; (failed r, m)
  | .read, m => let (r, m) := m.read junk pick; (failed r, m)

/-- A sequence of calls. -/
def Merge.calls (junk : Nat) (pick : Pick κ) : List (Merge.Call κ) → Merge κ → List Bool × Merge κ
  | [], m => ([], m)
  | c :: cs, m =>
    let (b, m) := m.call junk pick c
    let (bs, m) := Merge.calls junk pick cs m
    (b :: bs, m)

theorem undo_length : ∀ (j : Nat) (rs : List (Option Stream)), j < rs.length →
    (Merge.undo j rs).length = rs.length - j := by
  intro j
  induction j with
  | zero => intro rs _; rfl
  | succ j ih =>
    intro rs h
    rw [Merge.undo, ih _ (by simp; omega)]
    simp
    omega

/-- The reader that stays behind is not open. -/
theorem undo_none : ∀ (j : Nat) (rs : List (Option Stream)), rs.length = j + 1 →
    rs[j]? = some none → Merge.undo j rs = [none] := by
  intro j
  induction j with
  | zero =>
    intro rs h1 h2
    match rs, h1 with
    | [x], _ => simp at h2; subst h2; rfl
  | succ j ih =>
    intro rs h1 h2
    rw [Merge.undo]
    apply ih
    · simp [h1]
    · rw [List.dropLast_eq_take, List.getElem?_take, List.getElem?_set]
      simp [h1]

theorem openLoop_err {files : Bytes → Option Bytes} {e : Code} :
    ∀ (names : List Bytes) (acc rs : List (Option Stream)),
    Merge.openLoop files names acc = (.err e, rs) → rs = [none] := by
  intro names
  induction names with
  | nil => intro acc rs h; simp [Merge.openLoop] at h
  | cons f fs ih =>
    intro acc rs h
    rw [Merge.openLoop] at h
    split at h
    · exact ih _ _ h
    · simp only [Prod.mk.injEq] at h
      rw [← h.2]
      exact undo_none _ _ (by simp) (by simp)
    · cases h
    · cases h

/-- **C43**: the opposite of the statement holds.  For every list of files and every position
at which opening fails, after the failed `Open` every further call on the reader, whichever it
is, fails, and no sequence of calls changes that. -/
theorem C43_stuck_forever (junk : Nat) (pick : Pick κ) (m m' : Merge κ)
    (files : Bytes → Option Bytes) (names : List Bytes) (key : Bytes → κ) (e : Code)
    (h0 : m.Closed) (h : m.open files names key = (.err e, m')) (cs : List (Merge.Call κ)) :
    (∀ b ∈ (m'.calls junk pick cs).1, b = true) ∧
      (m'.calls junk pick cs).1.length = cs.length := by
  have hinv : m'.readers = [none] ∧ m'.heap = [] := by
    unfold Merge.open at h
    simp only [h0.1, ne_eq, not_true_eq_false, if_false, Prod.mk.injEq] at h
    obtain ⟨h1, rfl⟩ := h
    exact ⟨openLoop_err names [] _ (eq_pair h1), h0.2⟩
  clear h
  induction cs generalizing m' with
  | nil => simp [Merge.calls]
  | cons c cs ih =>
    have hstep : (m'.call junk pick c).1 = true ∧ (m'.call junk pick c).2.readers = [none] ∧
        (m'.call junk pick c).2.heap = [] := by
      cases c with
      | «open» f n k =>
        simp [Merge.call, Merge.open, hinv.1, hinv.2, failed]
      | close => simp [Merge.call, Merge.close, Merge.close.go, hinv.1, hinv.2, failed]
      | hasMore => simp [Merge.call, Merge.hasMore, Merge.hasMoreLoop, hinv.1, hinv.2, failed]
      | read =>
        simp [Merge.call, Merge.read, Merge.fill, Merge.fetch, hinv.1, hinv.2, failed]
    obtain ⟨i1, i2⟩ := ih (m'.call junk pick c).2 hstep.2
    refine ⟨?_, by simp [Merge.calls, i2]⟩
    intro b hb
    simp only [Merge.calls, List.mem_cons] at hb
    rcases hb with rfl | hb
    · exact hstep.1
    · exact i1 b hb

/-- **C43, a second `Open`**.  `Open` on a reader that is open already returns INTERNAL and
changes nothing. -/
theorem C43_open_twice (m m' : Merge κ) (files files' : Bytes → Option Bytes)
    (n : Bytes) (names names' : List Bytes) (key key' : Bytes → κ)
    (h0 : m.Closed) (h : m.open files (n :: names) key = (.ok (), m')) :
    m'.open files' names' key' = (.err .internal, m') := by
  have hne : m'.readers ≠ [] := by
    unfold Merge.open at h
    simp only [h0.1, ne_eq, not_true_eq_false, if_false, Prod.mk.injEq] at h
    obtain ⟨h1, rfl⟩ := h
    have hlen : ∀ (names : List Bytes) (acc : List (Option Stream)) {st rs},
        Merge.openLoop files names acc = (st, rs) → st = .ok () → acc.length ≤ rs.length := by
      intro names
      induction names with
      | nil => intro acc st rs h _; simp only [Merge.openLoop, Prod.mk.injEq] at h; rw [h.2]
      | cons a l ih =>
        intro acc st rs h hst
        subst hst
        rw [Merge.openLoop] at h
        cases ho : openRead files a with
        | ok s =>
          rw [ho] at h
          have := ih _ h rfl
          simp only [List.length_append, List.length_singleton] at this
          omega
        | err e => rw [ho] at h; cases h
        | crash => rw [ho] at h; cases h
        | ub => rw [ho] at h; cases h
    rw [Merge.openLoop] at h1 ⊢
    cases ho : openRead files n with
    | ok s =>
      rw [ho] at h1
      simp only at h1 ⊢
      have := hlen names ([] ++ [some s]) (eq_pair h1) rfl
      intro he
      simp only [he] at this
      simp at this
    | err e => rw [ho] at h1; cases h1
    | crash => rw [ho] at h1; cases h1
    | ub => rw [ho] at h1; cases h1
  simp only [Merge.open, ne_eq, hne, not_false_eq_true, if_true]

example : ∃ m', (Merge.init : Merge Nat).open (fun _ => some []) [[1]] lenKey = (.ok (), m') :=
  ⟨_, rfl⟩

/-- **C43** as stated in English is false. -/
theorem C43_fails : ¬ C43Statement Nat := by
  intro h
  have := h Merge.init _ (fun _ => none) [[1]] lenKey .notFound ⟨rfl, rfl⟩ rfl (fun _ => some [])
    [[1]] lenKey (by simp)
  exact absurd this (by decide)

/-- **C43**, partial: a reader is usable again after a successful `Open`, any number of
records read, and `Close`.  Missing: reuse after a failed `Open`, which does not work
(`C43_stuck_forever`). -/
theorem C43_reuse_partial (key : Bytes → κ) (junk : Nat) (pick : Pick κ) (hp : pick.Min)
    (files files' : Bytes → Option Bytes) (names names' : List Bytes)
    (contents contents' : List (List Bytes)) (hf : Hold files names contents)
    (hf' : Hold files' names' contents') (hs : ∀ rs ∈ contents, SortedBy key rs)
    (m0 : Merge κ) (h0 : m0.Closed) :
    ∃ m m' m'' m3, m0.open files names key = (.ok (), m) ∧
      (m.readAll junk pick (m.size + 1)).2 = (.ok (), m') ∧ m'.close = (.ok (), m'') ∧
      m''.open files' names' key = (.ok (), m3) := by
  obtain ⟨m, out, m', m'', h1, h2, -, -, -, -, h7, h8⟩ :=
    C42_merge key junk pick hp files names contents hf hs m0 h0
  obtain ⟨g1, g2⟩ := hf'.split
  obtain ⟨m3, k1, -⟩ := open_ok g1 g2 key m'' h8.1 h8.2
  exact ⟨m, m', m'', m3, h1, by rw [h2], h7, k1⟩

/-! ### C44 -/

/-- `Interleaving threads seq`: `seq` is a merge of the call sequences of the threads, each in
its own order. -/
inductive Interleaving : List (List Bytes) → List Bytes → Prop
  | done (ts : List (List Bytes)) (h : ∀ t ∈ ts, t = []) : Interleaving ts []
  | step (before after : List (List Bytes)) (r : Bytes) (t seq : List Bytes)
      (h : Interleaving (before ++ t :: after) seq) :
      Interleaving (before ++ (r :: t) :: after) (r :: seq)

theorem Interleaving.perm {ts : List (List Bytes)} {seq : List Bytes} (h : Interleaving ts seq) :
    seq.Perm ts.flatten := by
  induction h with
  | done ts h => rw [List.flatten_eq_nil_iff.2 h]
  | step before after r t seq _ ih =>
    simp only [List.flatten_append, List.flatten_cons, List.cons_append] at ih ⊢
    exact (ih.cons r).trans List.perm_middle.symm

/-- A writer ready for `SetShardPrefix`: a new one, or one that was closed and whose last file
was closed properly. -/
def Shard.Idle (s : Shard κ) : Prop :=
  s.cache = [] ∧ s.idx = 0 ∧ s.shards = [] ∧ s.healthy = true ∧ s.out.handle = none

/-- **C44**.  Threads write their records through one writer, in any interleaving of their
calls; if every `Write` and `Close` succeeds, then the files whose names `Close` returns are
distinct, each holds a non-empty list of records in key order, all of them together hold
exactly the records written, and no other file has changed.  This is for every size limit
(`s.maxBytes`) and every pattern of I/O faults (`Ω`). -/
theorem C44_shards (key : Bytes → κ) (Ω : Faults) (p : Bytes) (s : Shard κ) (hk : s.key = key)
    (hs : s.Idle) (threads : List (List Bytes)) (seq : List Bytes)
    (hseq : Interleaving threads seq) (sts : List (Res Unit)) (s1 s2 : Shard κ)
    (names : List Bytes) (hw : (s.setPrefix p).writes Ω seq = (sts, s1))
    (hok : ∀ st ∈ sts, st = .ok ()) (hc : s1.close Ω = (.ok names, s2)) :
    ∃ contents, Hold s2.out.world.files names contents ∧ names.Nodup ∧
      (∀ rs ∈ contents, SortedBy key rs ∧ rs ≠ []) ∧
      contents.flatten.Perm threads.flatten ∧
      (∀ n, n ∉ names → s2.out.world.files n = s.out.world.files n) ∧ s2.Idle := by
  have hi := ShardInv.start key p s hk hs.1 hs.2.1 hs.2.2.1 hs.2.2.2.1 hs.2.2.2.2
  obtain ⟨g1, hi1⟩ := hi.writes _ _ _ _ _ _ hw hok
  obtain ⟨g, e1, e2, e3, e4, e5, e6, e7, e8⟩ := hi1.close hc
  rw [List.nil_append] at e6
  refine ⟨g, ?_, ?_, fun rs hrs => ⟨e3 rs hrs, e4 rs hrs⟩, e6.trans hseq.perm, ?_, ?_⟩
  · unfold Hold
    rw [e1, List.forall₂_iff_get]
    refine ⟨by simp, ?_⟩
    intro i h1 h2
    have hsh := e5 (g.get ⟨i, h2⟩) (List.get_mem _ _)
    refine ⟨?_, hsh⟩
    rw [fileOf_eq hsh]
    simp only [List.get_eq_getElem, List.getElem_map, List.getElem_range]
    exact e2 i _ (List.getElem?_eq_getElem h2)
  · rw [e1]
    exact (List.nodup_range).map (fun i j h => shardName_inj h)
  · intro n hn
    apply e7
    intro i hi e
    apply hn
    rw [e1, e]
    exact List.mem_map.2 ⟨i, by simpa using hi, rfl⟩
  · unfold Shard.close at hc
    simp only [Prod.mk.injEq] at hc
    obtain ⟨-, rfl⟩ := hc
    exact ⟨rfl, rfl, rfl, rfl, e8⟩

/-- **C44**: without I/O faults every call succeeds. -/
theorem C44_no_faults (key : Bytes → κ) (p : Bytes) (s : Shard κ) (hk : s.key = key)
    (hs : s.Idle) (seq : List Bytes) (hlen : ∀ r ∈ seq, r.length < 2 ^ 31) :
    (∀ st ∈ ((s.setPrefix p).writes .none seq).1, st = .ok ()) ∧
      ∃ names, (((s.setPrefix p).writes .none seq).2.close .none).1 = .ok names := by
  have hi := ShardInv.start key p s hk hs.1 hs.2.1 hs.2.2.1 hs.2.2.2.1 hs.2.2.2.2
  have h1 := writes_none seq _ _ _ hi (by simpa using hlen)
  refine ⟨h1, ?_⟩
  obtain ⟨g1, hi1⟩ := hi.writes _ _ _ _ _ _ rfl h1
  exact close_none hi1 (by simpa using hlen)

/-- Two threads, a limit of zero bytes, so that several shards are written. -/
example : ∃ names s2 contents,
    (((Shard.init lenKey 0 ⟨fun _ => none, 0⟩).setPrefix (str "s")).writes .none
      [[1, 1], [2], [3, 3, 3], []]).2.close .none = (.ok names, s2) ∧
    names = [str "s0", str "s1", str "s2", str "s3"] ∧ Hold s2.out.world.files names contents ∧
    contents.flatten.Perm [[1, 1], [3, 3, 3], [2], []] := by
  have hidle : (Shard.init lenKey 0 ⟨fun _ => none, 0⟩).Idle := ⟨rfl, rfl, rfl, rfl, rfl⟩
  obtain ⟨h1, names, h2⟩ := C44_no_faults lenKey (str "s") _ rfl hidle
    [[1, 1], [2], [3, 3, 3], []] (by decide)
  have hseq : Interleaving [[[1, 1], [3, 3, 3]], [[2], []]] [[1, 1], [2], [3, 3, 3], []] :=
    .step [] [[[2], []]] _ _ _ (.step [[[3, 3, 3]]] [] _ _ _ (.step [] [[[]]] _ _ _
      (.step [[]] [] _ _ _ (.done _ (by simp)))))
  obtain ⟨contents, g1, -, -, g2, -⟩ := C44_shards lenKey .none (str "s") _ rfl hidle _ _ hseq _ _ _
    names rfl h1 (eq_pair h2)
  refine ⟨names, _, contents, eq_pair h2, ?_, g1, by simpa using g2⟩
  have : ((((Shard.init lenKey 0 ⟨fun _ => none, 0⟩).setPrefix (str "s")).writes .none
      [[1, 1], [2], [3, 3, 3], []]).2.close .none).1 = .ok [str "s0", str "s1", str "s2", str "s3"] := by
    decide +kernel
  rw [this] at h2
  cases h2
  rfl

/-! ### C45 -/

/-- **C45**, partial: after a failure to open a shard or to write a record to it (the writer is
not healthy) every `Write` fails, without any effect, and `Close` reports INTERNAL. -/
theorem C45_sticky_partial (Ω : Faults) (s : Shard κ) (ho : s.isOpen = true)
    (hh : s.healthy = false) (rs : List Bytes) :
    (∀ st ∈ (s.writes Ω rs).1, st = .err .internal) ∧ (s.writes Ω rs).2 = s ∧
      ((s.writes Ω rs).2.close Ω).1 = .err .internal := by
  have hw : ∀ r, s.write Ω r = (.err .internal, s) := by
    intro r; simp [Shard.write, ho, hh]
  have h2 : ∀ rs, (∀ st ∈ (s.writes Ω rs).1, st = .err .internal) ∧ (s.writes Ω rs).2 = s := by
    intro rs
    induction rs with
    | nil => simp [Shard.writes]
    | cons r rs ih =>
      simp only [Shard.writes, hw]
      refine ⟨?_, ih.2⟩
      intro st hst
      rcases List.mem_cons.1 hst with rfl | hst
      · rfl
      · exact ih.1 st hst
  refine ⟨(h2 rs).1, (h2 rs).2, ?_⟩
  rw [(h2 rs).2]
  simp [Shard.close, Shard.tryClose, Shard.flush, ho, hh]

/-- **C45**, partial: which failures have that effect.  If a `Write` fails, the writer is not
healthy afterwards unless the one thing that failed was closing the shard file after all its
records had been written. -/
theorem C45_failed_write_partial (Ω : Faults) (s s' : Shard κ) (r : Bytes) (e : Code)
    (ho : s.isOpen = true) (hh : s.healthy = true) (h : s.write Ω r = (.err e, s')) :
    s'.isOpen = true ∧ (s'.healthy = false ∨
      ∃ o1 o2 o3, s.out.open Ω s.name = (.ok (), o1) ∧
        o1.writeAll (fun r o => o.writeRecord Ω r) s.sorted = (.ok (), o2) ∧
        o2.close Ω = (.err .internal, o3)) := by
  unfold Shard.write at h
  simp only [ho, hh, Bool.not_true, Bool.false_eq_true, if_false] at h
  by_cases hb : s.bytes > s.maxBytes
  · simp only [hb, if_true] at h
    cases hf : s.flush Ω with
    | mk st s1 =>
      rw [hf] at h
      cases st with
      | ok u => simp at h
      | crash => simp at h
      | ub => simp at h
      | err e' =>
        simp only [Prod.mk.injEq] at h
        obtain ⟨-, rfl⟩ := h
        unfold Shard.flush at hf
        simp only [hh, Bool.not_true, Bool.false_eq_true, if_false] at hf
        split at hf
        · cases hf
        · split at hf
          · rename_i o1 h1
            split at hf
            · rename_i written o2 h2
              cases written with
              | false =>
                simp only [Prod.mk.injEq] at hf
                obtain ⟨-, rfl⟩ := hf
                exact ⟨ho, .inl rfl⟩
              | true =>
                simp only [Prod.mk.injEq] at hf
                obtain ⟨h3, rfl⟩ := hf
                refine ⟨ho, .inr ⟨o1, o2, (o2.close Ω).2, h1, writeLoop_ok _ _ _ h2, ?_⟩⟩
                simp only [if_true] at h3
                have : (o2.close Ω).1 = .err .internal := by
                  unfold Out.close at h3 ⊢
                  split
                  · rfl
                  · split
                    · rename_i hk
                      simp_all
                    · rfl
                exact eq_pair this
            · rename_i e2 o2 h2
              exfalso
              -- the loop does not return an error
              have : ∀ (rs : List Bytes) (o o' : Out) (e : Code),
                  Shard.writeLoop Ω rs o ≠ (.err e, o') := by
                intro rs
                induction rs with
                | nil => intro o o' e h; simp [Shard.writeLoop] at h
                | cons x rs ih =>
                  intro o o' e h
                  rw [Shard.writeLoop] at h
                  split at h
                  · exact ih _ _ _ h
                  · cases h
                  · cases h
                  · cases h
              exact this _ _ _ _ h2
            · cases hf
            · cases hf
          · simp only [Prod.mk.injEq] at hf
            obtain ⟨-, rfl⟩ := hf
            exact ⟨ho, .inl rfl⟩
  · simp only [hb, if_false] at h
    simp at h

/-- What the English statement says of a failed `Write`. -/
def C45Statement : Prop := ∀ (Ω : Faults) (s s' : Shard Nat) (r : Bytes) (e : Code),
  s.isOpen = true → s.healthy = true → s.write Ω r = (.err e, s') →
  (∀ r', ∃ e', (s'.write Ω r').1 = .err e') ∧ ∃ e', (s'.close Ω).1 = .err e'

/-- The fourth call, closing the first shard, fails and loses everything in it. -/
def closeFault : Faults := { ok := fun t => t ≠ 2, kept := fun _ => 0 }

/-- It fails: after the close of a shard failed, the next `Write` succeeds, and `Close`
reports success with a list of shards from which records are missing. -/
theorem C45_fails : ¬ C45Statement := by
  intro h
  have h1 := h closeFault (((Shard.init lenKey 0 ⟨fun _ => none, 0⟩).setPrefix [1]).write
    closeFault [7]).2 _ [8] .internal rfl rfl (eq_pair (by decide +kernel))
  obtain ⟨e, he⟩ := h1.1 [9]
  revert he
  cases e <;> decide +kernel

/-- The lost records: `Write` of the second record failed, but `Close` succeeds and the one
shard it names is empty, although `Write` of the first record had succeeded. -/
theorem C45_silent_loss :
    let s1 := ((Shard.init lenKey 0 ⟨fun _ => none, 0⟩).setPrefix [1]).write closeFault [7]
    let s2 := s1.2.write closeFault [8]
    let s3 := s2.2.close closeFault
    s1.1 = .ok () ∧ s2.1 = .err .internal ∧ s3.1 = .ok [shardName [1] 0] ∧
      s3.2.out.world.files (shardName [1] 0) = some [] := by
  decide +kernel

/-- A shard that cannot be opened: the hypotheses of the partial theorems are met. -/
example : ∃ s', (((Shard.init lenKey 0 ⟨fun _ => none, 0⟩).setPrefix [1]).write
      ⟨fun t => t ≠ 0, fun _ => 0⟩ [7]).2.write ⟨fun t => t ≠ 0, fun _ => 0⟩ [8] =
    (.err .internal, s') ∧ s'.healthy = false ∧ s'.isOpen = true :=
  ⟨_, eq_pair (by decide +kernel), by decide +kernel, by decide +kernel⟩

/-! ### C46 -/

/-- **C46**.  `Merge` over existing sorted shards: if it succeeds, the output file holds all
their records and only those, in key order, and no other file has changed. -/
theorem C46_merge (key : Bytes → κ) (junk : Nat) (pick : Pick κ) (hp : pick.Min) (Ω : Faults)
    (names : List Bytes) (output : Bytes) (w w' : World) (contents : List (List Bytes))
    (hf : Hold w.files names contents) (hs : ∀ rs ∈ contents, SortedBy key rs)
    (h : shardMerge Ω junk pick key names output w = (.ok (), w')) :
    ∃ out, (w'.files output = fileOf out) ∧ SortedBy key out ∧ out.Perm contents.flatten ∧
      ∀ n, n ≠ output → w'.files n = w.files n := by
  obtain ⟨h1, h2⟩ := hf.split
  obtain ⟨out, e1, e2, e3, e4⟩ := shardMerge_ok hp h1 h2 hs h
  refine ⟨out, ?_, e2, e3, e4⟩
  rw [e1, fileOf_eq]
  intro r hr
  obtain ⟨R, hR, hrR⟩ := List.mem_flatten.1 (e3.mem_iff.1 hr)
  exact h2 R hR r hrR

/-- **C46**: without I/O faults it succeeds. -/
theorem C46_no_faults (key : Bytes → κ) (junk : Nat) (pick : Pick κ) (hp : pick.Min)
    (names : List Bytes) (output : Bytes) (w : World) (contents : List (List Bytes))
    (hf : Hold w.files names contents) (hs : ∀ rs ∈ contents, SortedBy key rs) :
    (shardMerge .none junk pick key names output w).1 = .ok () := by
  obtain ⟨h1, h2⟩ := hf.split
  exact shardMerge_none hp h1 h2 hs

/-- Without shards the output is an empty file. -/
example : ∃ w', shardMerge .none 1 minPick lenKey [] [9] ⟨fun _ => none, 0⟩ = (.ok (), w') ∧
    w'.files [9] = some [] := ⟨_, rfl, rfl⟩

/-- Two shards. -/
example : ∃ w' out, shardMerge .none 1 minPick lenKey [[1], [2]] [9]
      ⟨fun n => if n = [1] then fileOf [[5], [6, 6]] else fileOf [[], [7, 7]], 0⟩ = (.ok (), w') ∧
    w'.files [9] = fileOf out ∧ out.Perm [[5], [6, 6], [], [7, 7]] := by
  have hf : Hold (fun n => if n = [1] then fileOf [[5], [6, 6]] else fileOf [[], [7, 7]])
      [[1], [2]] [[[5], [6, 6]], [[], [7, 7]]] :=
    .cons ⟨by simp, by decide⟩ (.cons ⟨by simp, by decide⟩ .nil)
  have hs : ∀ rs ∈ [[[5], [6, 6]], [[], [7, 7]]], SortedBy lenKey rs := by simp [SortedBy, lenKey]
  have h := C46_no_faults lenKey 1 minPick minPick_min [[1], [2]] [9] ⟨_, 0⟩ _ hf hs
  obtain ⟨out, h1, -, h2, -⟩ := C46_merge lenKey 1 minPick minPick_min .none _ [9] ⟨_, 0⟩ _ _ hf hs
    (eq_pair h)
  exact ⟨_, out, eq_pair h, h1, by simpa using h2⟩

end PJC.Rec
