import Verif.Props.PosixFile
import Verif.Model.Names
import Mathlib.Data.List.Induction
import Mathlib.Data.List.TakeWhile
/-
C98: file functions and their string arguments.  C99: directories.
-/
namespace PJC.File
open PJC.Rec

/-! ### Specification of C98 -/

/-- The view lies within its allocation. -/
def View.Valid (v : View) : Prop := v.off + v.len ≤ v.buf.length

instance (v : View) : Decidable v.Valid := inferInstanceAs (Decidable (_ ≤ _))

/-- The object has the file `name` open for writing. -/
def Writing (p : PFile) (name : Bytes) : Prop :=
  ∃ s, p.f = .stream s ∧ s.write = true ∧ s.name = name

/-- The first half of the full property: a line is appended as it is, whatever buffer it lies in. -/
def C98LineStatement : Prop :=
  ∀ (D : Device), Works D → ∀ (v : View), v.Valid → ∀ (p : PFile) (name c : Bytes),
    Writing p name → p.world.files name = some c →
    (p.writeLineView D v).1 = .ok () ∧
      (p.writeLineView D v).2.world.files name = some (c ++ v.bytes ++ [10])

/-- The second half: the file deleted is the one named. -/
def C98NameStatement : Prop :=
  ∀ (v : View), v.Valid → ∀ (w : World), (w.files v.bytes).isSome →
    (deleteView Faults.none v w).1 = .ok () ∧
      (deleteView Faults.none v w).2.files = fun n => if n = v.bytes then none else w.files n

/-! ### C98 -/

/-- A line in an array of characters without a NUL: undefined behaviour. -/
theorem C98_lines_fail : ¬ C98LineStatement := by
  intro h
  have := (h ⟨Faults.none, fun _ => true⟩ (fun _ => rfl) ⟨[97], 0, 1⟩ (by decide)
    ⟨.stream ⟨[102], true, [], false, false⟩, ⟨fun _ => some [], 0⟩, 1⟩ [102] []
    ⟨_, rfl, rfl, rfl⟩ rfl).1
  exact absurd this (by decide)

/-- The view `ab` into the string `abc`: the file deleted is `abc`. -/
theorem C98_names_fail : ¬ C98NameStatement := by
  intro h
  have := (h ⟨[97, 98, 99, 0], 0, 2⟩ (by decide) ⟨fun _ => some [], 0⟩ rfl).2
  have h2 := congrFun this [97, 98]
  exact absurd h2 (by decide)

/-- Exactly when writing a line is undefined, for a file open for writing. -/
theorem C98_line_iff (D : Device) (v : View) (hv : v.Valid) (p : PFile) (name : Bytes)
    (hp : Writing p name) : (p.writeLineView D v).1 = .ub ↔ 0 ∉ v.tail := by
  obtain ⟨s, hf, hw, hn⟩ := hp
  have hlen : ¬ v.tail.length < v.len := by
    unfold View.Valid at hv
    simp only [View.tail, List.length_drop]
    omega
  constructor
  · intro h h0
    unfold PFile.writeLineView View.cString at h
    rw [if_pos h0] at h
    simp only [PFile.write, hf, hw, if_neg hlen] at h
    simp only [Bool.not_true, Bool.false_eq_true, if_false] at h
    by_cases hz : v.len = 0
    · by_cases hd : D.dev.ok p.world.tick <;>
        simp [hz, hf, hw, hd] at h
    by_cases hd : D.dev.ok p.world.tick
    · simp only [hz, hd, if_true, if_false, hw] at h
      revert h
      simp only [List.length_singleton, lt_irrefl, if_false, Bool.not_true, Bool.false_eq_true,
        one_ne_zero]
      split <;> simp
    · simp [hz, hd] at h
  · intro h
    simp [PFile.writeLineView, View.cString, h]

/-- **C98**, lines, as far as it holds: if a NUL follows somewhere in the allocation, the line and a
newline are appended to the file, whatever bytes the line consists of, and no other file changes. -/
theorem C98_line_partial (D : Device) (hD : Works D) (v : View) (hv : v.Valid) (h0 : 0 ∈ v.tail)
    (p : PFile) (name c : Bytes) (hp : Writing p name) (hc : p.world.files name = some c) :
    (p.writeLineView D v).1 = .ok () ∧
      (p.writeLineView D v).2.world.files = fun n =>
        if n = name then some (c ++ v.bytes ++ [10]) else p.world.files n := by
  obtain ⟨s, hf, hw, hn⟩ := hp
  have hlen : ¬ v.tail.length < v.len := by
    unfold View.Valid at hv
    simp only [View.tail, List.length_drop]
    omega
  unfold PFile.writeLineView View.cString
  rw [if_pos h0]
  simp only [PFile.write, hf, hw, if_neg hlen, hD _, hn, hc]
  by_cases hz : v.len = 0
  · simp only [hz, Bool.not_true, Bool.false_eq_true, if_false, if_true, List.length_singleton,
      lt_irrefl, World.set, Option.getD_some, true_and, hw, hn, hf, hc, one_ne_zero]
    funext n
    by_cases hn' : n = name <;> simp [hn', View.bytes, Data.newline, hz]
  simp only [hz, Bool.not_true, Bool.false_eq_true, if_false, if_true, List.length_singleton,
    lt_irrefl, World.set, Option.getD_some, true_and, hw, hn, one_ne_zero]
  funext n
  by_cases hn' : n = name <;> simp [hn', View.bytes, Data.newline]

/-- **C98**, records: they are appended as they are, whatever buffer they lie in. -/
theorem C98_record (D : Device) (hD : Works D) (v : View) (p : PFile) (name c out : Bytes)
    (hp : Writing p name) (hc : p.world.files name = some c)
    (henc : encodeRecord v.bytes = .ok out) :
    (p.writeRecordView D v).1 = .ok () ∧
      (p.writeRecordView D v).2.world.files = fun n =>
        if n = name then some (c ++ out) else p.world.files n := by
  obtain ⟨s, hf, hw, hn⟩ := hp
  unfold PFile.writeRecordView
  rw [henc]
  simp only [PFile.write, hf, hw, lt_irrefl, hD _, hn, hc]
  by_cases hz : out = []
  · subst hz
    refine ⟨by simp, funext fun n => ?_⟩
    by_cases hn' : n = name <;> simp [hn', hc]
  simp [World.set, hz]

/-- Exactly when the C library sees the name that is meant: no NUL in it and one right behind. -/
theorem C98_names_exact (v : View) (hv : v.Valid) :
    v.cString = .ok v.bytes ↔ 0 ∉ v.bytes ∧ v.tail[v.len]? = some 0 := by
  have hlen : v.len ≤ v.tail.length := by
    unfold View.Valid at hv
    simp only [View.tail, List.length_drop]
    omega
  unfold View.cString View.bytes
  generalize v.tail = l at hlen ⊢
  generalize v.len = k at hlen ⊢
  constructor
  · intro h
    by_cases h0 : (0 : Byte) ∈ l
    · rw [if_pos h0] at h
      simp only [Res.ok.injEq] at h
      constructor
      · intro hm
        rw [← h] at hm
        have := List.mem_takeWhile_imp hm
        simp at this
      · have hk : (l.takeWhile (· != 0)).length = k := by rw [h, List.length_take]; omega
        have hd : l = l.takeWhile (· != 0) ++ l.dropWhile (· != 0) :=
          (List.takeWhile_append_dropWhile).symm
        rw [hd, List.getElem?_append_right (by omega), hk, Nat.sub_self]
        cases hdw : l.dropWhile (· != 0) with
        | nil =>
          rw [hdw, List.append_nil] at hd
          rw [hd] at h0
          have := List.mem_takeWhile_imp h0
          simp at this
        | cons b r =>
          have := List.head_dropWhile_not (l := l) (· != (0 : Byte)) (by rw [hdw]; simp)
          simp only [hdw, List.head_cons] at this
          simp only [bne_eq_false_iff_eq] at this
          simp [this]
    · rw [if_neg h0] at h
      cases h
  · rintro ⟨h1, h2⟩
    have hs : l = l.take k ++ 0 :: l.drop (k + 1) := by
      conv_lhs => rw [← List.take_append_drop k l]
      rw [List.append_cancel_left_eq]
      have hlt : k < l.length := by
        by_contra hh
        rw [List.getElem?_eq_none (by omega)] at h2
        cases h2
      rw [List.drop_eq_getElem_cons hlt]
      rw [List.getElem?_eq_getElem hlt] at h2
      simp only [Option.some.injEq] at h2
      rw [h2]
    have h0 : (0 : Byte) ∈ l := by rw [hs]; simp
    rw [if_pos h0]
    congr 1
    conv_lhs => rw [hs]
    rw [List.takeWhile_append_of_pos]
    · simp
    · intro a ha
      simp only [bne_iff_ne, ne_eq]
      rintro rfl
      exact h1 ha

/-- A name that the C library sees as it is meant. -/
def View.Exact (v : View) : Prop := v.Valid ∧ 0 ∉ v.bytes ∧ v.tail[v.len]? = some 0

/-- **C98**, names, as far as it holds: with such names the file opened is the one named, a file
that exists is deleted, and nothing else, and renaming moves the content, replaces what had the new
name, and changes nothing else. -/
theorem C98_names_partial (a b : View) (ha : a.Exact) (hb : b.Exact) :
    (∀ (D : Device) (mode : Mode) (p : PFile), p.openView D a mode = p.open D a.bytes mode) ∧
    (∀ w : World, (w.files a.bytes).isSome → (deleteView Faults.none a w).1 = .ok () ∧
      (deleteView Faults.none a w).2.files = fun n => if n = a.bytes then none else w.files n) ∧
    (∀ (w : World) (c : Bytes), w.files a.bytes = some c → (renameView Faults.none a b w).1 = .ok () ∧
      (renameView Faults.none a b w).2.files b.bytes = some c ∧
      (a.bytes ≠ b.bytes → (renameView Faults.none a b w).2.files a.bytes = none) ∧
      ∀ n, n ≠ a.bytes → n ≠ b.bytes → (renameView Faults.none a b w).2.files n = w.files n) := by
  have hca : a.cString = .ok a.bytes := (C98_names_exact a ha.1).2 ha.2
  have hcb : b.cString = .ok b.bytes := (C98_names_exact b hb.1).2 hb.2
  refine ⟨?_, ?_, ?_⟩
  · intro D mode p
    unfold PFile.openView
    rw [hca]
    cases hf : p.f <;> simp [PFile.open, hf]
  · intro w hw
    unfold deleteView deleteFile
    rw [hca]
    simp [hw, Faults.none, World.set]
  · intro w c hc
    unfold renameView renameC
    rw [hca, hcb]
    simp only [hc, Faults.none, if_true, true_and]
    refine ⟨?_, ?_⟩
    · intro hne
      simp [hne]
    · intro n h1 h2
      simp [h1, h2]

/-- **C98**: whatever the device does, a failed deletion or renaming is reported with INTERNAL and
changes no file. -/
theorem C98_failed_calls (Ω : Faults) (a b : View) (ha : a.Exact) (hb : b.Exact) (w : World) :
    ((deleteView Ω a w).1 = .ok () ∨
      (deleteView Ω a w).1 = .err .internal ∧ (deleteView Ω a w).2.files = w.files) ∧
    ((renameView Ω a b w).1 = .ok () ∨
      (renameView Ω a b w).1 = .err .internal ∧ (renameView Ω a b w).2.files = w.files) ∧
    ((renameView Ω a b w).1 = .ok () → (w.files a.bytes).isSome) ∧
    ((deleteView Ω a w).1 = .ok () → (w.files a.bytes).isSome) := by
  have hca : a.cString = .ok a.bytes := (C98_names_exact a ha.1).2 ha.2
  have hcb : b.cString = .ok b.bytes := (C98_names_exact b hb.1).2 hb.2
  unfold renameView renameC deleteView deleteFile
  rw [hca, hcb]
  dsimp only
  cases hf : w.files a.bytes with
  | none => simp [World.next]
  | some c =>
    cases hd : Ω.ok w.tick <;> simp [World.next]

/-- **C98**: strings (`std::string`) without a NUL are such names, and `FileExists` tells whether
the file named exists. -/
theorem C98_strings (s : Bytes) (hs : 0 ∉ s) :
    (View.ofString s).Exact ∧ (View.ofString s).bytes = s ∧
    ∀ w : World, fileExists (View.ofString s) w =
      if (w.files s).isSome then .ok () else .err .notFound := by
  have hb : (View.ofString s).bytes = s := by
    simp [View.ofString, View.bytes, View.tail]
  refine ⟨⟨by simp [View.Valid, View.ofString], by rwa [hb], ?_⟩, hb, ?_⟩
  · simp [View.ofString, View.tail]
  · intro w
    unfold fileExists
    rw [hb]
    have : s.takeWhile (· != 0) = s := by
      rw [List.takeWhile_eq_self_iff]
      intro x hx
      simp only [bne_iff_ne, ne_eq]
      rintro rfl
      exact hs hx
    rw [this]

/-- The statement about lines is met by a view into the middle of a buffer. -/
example : ∃ (v : View) (p : PFile), v.Valid ∧ 0 ∈ v.tail ∧ v.bytes = [98, 0, 99] ∧ Writing p [102] ∧
    (p.writeLineView ⟨Faults.none, fun _ => true⟩ v).2.world.files [102] =
      some [97, 98, 0, 99, 10] :=
  ⟨⟨[97, 98, 0, 99, 100], 1, 3⟩,
    ⟨.stream ⟨[102], true, [], false, false⟩, ⟨fun _ => some [97], 0⟩, 1⟩,
    by decide, by decide, by decide, ⟨_, rfl, rfl, rfl⟩, by decide⟩

/-- A string with a NUL in it names another file. -/
example : (deleteView Faults.none (View.ofString [97, 0, 98]) ⟨fun _ => some [], 0⟩).2.files [97] =
    none := by decide

/-! ### Specification of C99 -/

/-- A tree of files: the root is a directory and what exists lies in directories. -/
def WellFormed (t : Tree) : Prop :=
  t [] = some .dir ∧ ∀ p c, (t (p ++ [c])).isSome → t p = some .dir

/-! ### C99 -/

theorem createDirs_spec (ok : Nat → Bool) (cs : List Bytes) :
    ∀ (above : List Bytes) (made : Bool) (tick : Nat) (t : Tree),
    ((∃ b, (createDirs ok above cs made tick t).1 = .ok b) ∨
      (createDirs ok above cs made tick t).1 = .err .internal) ∧
    (∀ p, (createDirs ok above cs made tick t).2 p = t p ∨
      t p = none ∧ (createDirs ok above cs made tick t).2 p = some .dir ∧
        ∃ k < cs.length, p = above ++ cs.take (k + 1)) ∧
    (∀ b, (createDirs ok above cs made tick t).1 = .ok b →
      (∀ k < cs.length, (createDirs ok above cs made tick t).2 (above ++ cs.take (k + 1)) =
        some .dir) ∧
      (cs = [] → b = made) ∧ (cs ≠ [] → (b = true ↔ t (above ++ cs) = none))) := by
  induction cs with
  | nil =>
    intro above made tick t
    refine ⟨Or.inl ⟨made, rfl⟩, fun p => Or.inl rfl, ?_⟩
    intro b hb
    simp only [createDirs, Res.ok.injEq] at hb
    exact ⟨fun k hk => absurd hk (by simp), fun _ => hb.symm, fun h => absurd rfl h⟩
  | cons c cs ih =>
    intro above made tick t
    have happ : ∀ l : List Bytes, above ++ [c] ++ l = above ++ c :: l := by intro l; simp
    -- what a step that goes on gives
    have step : ∀ (made' : Bool) (tick' : Nat) (t' : Tree), t' (above ++ [c]) = some .dir →
        (∀ p, t' p = t p ∨ t p = none ∧ t' p = some .dir ∧ p = above ++ [c]) →
        (made' = true ↔ t (above ++ [c]) = none) →
        ((∃ b, (createDirs ok (above ++ [c]) cs made' tick' t').1 = .ok b) ∨
          (createDirs ok (above ++ [c]) cs made' tick' t').1 = .err .internal) ∧
        (∀ p, (createDirs ok (above ++ [c]) cs made' tick' t').2 p = t p ∨
          t p = none ∧ (createDirs ok (above ++ [c]) cs made' tick' t').2 p = some .dir ∧
            ∃ k < (c :: cs).length, p = above ++ (c :: cs).take (k + 1)) ∧
        (∀ b, (createDirs ok (above ++ [c]) cs made' tick' t').1 = .ok b →
          (∀ k < (c :: cs).length, (createDirs ok (above ++ [c]) cs made' tick' t').2
            (above ++ (c :: cs).take (k + 1)) = some .dir) ∧
          (c :: cs = [] → b = made) ∧ (c :: cs ≠ [] → (b = true ↔ t (above ++ c :: cs) = none))) := by
      intro made' tick' t' hdir hsame hmade
      obtain ⟨h1, h2, h3⟩ := ih (above ++ [c]) made' tick' t'
      have hkeep : (createDirs ok (above ++ [c]) cs made' tick' t').2 (above ++ [c]) = some .dir := by
        rcases h2 (above ++ [c]) with h | ⟨h, _⟩
        · rw [h, hdir]
        · rw [hdir] at h; cases h
      refine ⟨h1, ?_, ?_⟩
      · intro p
        rcases h2 p with h | ⟨hn, hd, k, hk, hp⟩
        · rcases hsame p with h' | ⟨hn, hd, hp⟩
          · exact Or.inl (h.trans h')
          · exact Or.inr ⟨hn, by rw [h, hd], 0, by simp, by simpa using hp⟩
        · rcases hsame p with h' | ⟨_, hd', _⟩
          · refine Or.inr ⟨by rw [← h', hn], hd, k + 1, by simpa using hk, ?_⟩
            rw [hp, happ]
            simp
          · rw [hd'] at hn; cases hn
      · intro b hb
        obtain ⟨g1, g2, g3⟩ := h3 b hb
        refine ⟨?_, fun h => absurd h (List.cons_ne_nil _ _), fun _ => ?_⟩
        · intro k hk
          cases k with
          | zero => simpa using hkeep
          | succ k =>
            have := g1 k (by simpa using hk)
            rw [happ] at this
            simpa using this
        · cases hcs : cs with
          | nil => rw [g2 hcs, hmade]
          | cons d ds =>
            rw [g3 (by rw [hcs]; simp), happ, ← hcs]
            rcases hsame (above ++ c :: cs) with h' | ⟨_, _, hp⟩
            · rw [h']
            · exfalso
              have := congrArg List.length hp
              rw [hcs] at this
              simp at this
    unfold createDirs
    cases hn : t (above ++ [c]) with
    | none =>
      dsimp only
      by_cases hok : ok tick
      · rw [if_pos hok]
        refine step true (tick + 1) (t.set (above ++ [c]) .dir) (by simp [Tree.set]) ?_ (by simp [hn])
        intro p
        by_cases hp : p = above ++ [c]
        · right
          subst hp
          exact ⟨hn, by simp [Tree.set], rfl⟩
        · left
          simp [Tree.set, hp]
      · rw [if_neg hok]
        refine ⟨Or.inr rfl, fun p => Or.inl rfl, ?_⟩
        intro b hb
        cases hb
    | some n =>
      cases n with
      | dir =>
        dsimp only
        exact step false tick t hn (fun p => Or.inl rfl) (by simp [hn])
      | file x =>
        refine ⟨Or.inr rfl, fun p => Or.inl rfl, ?_⟩
        intro b hb
        cases hb

/-- On a well-formed tree, where something exists all directories above do. -/
theorem WellFormed.above {t : Tree} (h : WellFormed t) (q : List Bytes) :
    ∀ p, (t (p ++ q)).isSome → q ≠ [] → t p = some .dir := by
  induction q using List.reverseRecOn with
  | nil => intro p _ hq; exact absurd rfl hq
  | append_singleton q c ih =>
    intro p hs _
    rw [← List.append_assoc] at hs
    have := h.2 (p ++ q) c hs
    by_cases hq : q = []
    · subst hq
      simpa using this
    · exact ih p (by rw [this]; rfl) hq

/-- **C99**: what a call of `RecursivelyCreateDir` does, whatever fails: nothing that exists
changes, what is added are directories on the way to the one asked for, and the tree stays well
formed. -/
theorem C99_create_keeps (ok : Nat → Bool) (path : Bytes) (t : Tree) (ht : WellFormed t) :
    WellFormed (recursivelyCreateDir ok path t).2 ∧
    ∀ p, (recursivelyCreateDir ok path t).2 p = t p ∨
      t p = none ∧ (recursivelyCreateDir ok path t).2 p = some .dir ∧ p <+: components path := by
  have hsnd : (recursivelyCreateDir ok path t).2 =
      (createDirs ok [] (components path) false 0 t).2 := by
    unfold recursivelyCreateDir
    split <;> simp_all
  have hspec := createDirs_spec ok (components path) [] false 0 t
  rw [hsnd]
  have hadd : ∀ p, (createDirs ok [] (components path) false 0 t).2 p = t p ∨
      t p = none ∧ (createDirs ok [] (components path) false 0 t).2 p = some .dir ∧
        p <+: components path := by
    intro p
    rcases hspec.2.1 p with h | ⟨h1, h2, k, _, h3⟩
    · exact Or.inl h
    · refine Or.inr ⟨h1, h2, ?_⟩
      rw [h3, List.nil_append]
      exact List.take_prefix _ _
  refine ⟨?_, hadd⟩
  clear hspec hadd hsnd
  -- directories are made from the top
  have gen : ∀ (cs above : List Bytes) (made : Bool) (tick : Nat) (t : Tree), WellFormed t →
      t above = some .dir → WellFormed (createDirs ok above cs made tick t).2 := by
    intro cs
    induction cs with
    | nil => intro above made tick t ht _; exact ht
    | cons c cs ih =>
      intro above made tick t ht hd
      unfold createDirs
      cases hn : t (above ++ [c]) with
      | none =>
        dsimp only
        by_cases hok : ok tick
        · rw [if_pos hok]
          refine ih _ _ _ _ ⟨?_, ?_⟩ (by simp [Tree.set])
          · rw [Tree.set, if_neg (by simp)]
            exact ht.1
          · intro p d hs
            by_cases hp : p ++ [d] = above ++ [c]
            · have := List.append_inj' hp rfl
              rw [this.1, Tree.set, if_neg (by simp)]
              exact hd
            · rw [Tree.set, if_neg hp] at hs
              have := ht.2 p d hs
              unfold Tree.set
              split
              · rfl
              · exact this
        · rw [if_neg hok]
          exact ht
      | some n =>
        cases n with
        | dir => exact ih _ _ _ _ ht hn
        | file x => exact ht
  exact gen _ _ _ _ _ ht ht.1

/-- **C99**: OK means that the directory was not there and is there now, with all above it. -/
theorem C99_create_ok (ok : Nat → Bool) (path : Bytes) (t : Tree)
    (h : (recursivelyCreateDir ok path t).1 = .ok ()) :
    t (components path) = none ∧
    (∀ p, p ≠ [] → p <+: components path → (recursivelyCreateDir ok path t).2 p = some .dir) ∧
    existsInTree path (recursivelyCreateDir ok path t).2 = .ok () := by
  have hspec := createDirs_spec ok (components path) [] false 0 t
  unfold recursivelyCreateDir at h ⊢
  cases hr : createDirs ok [] (components path) false 0 t with
  | mk r t' =>
    rw [hr] at h hspec
    cases r with
    | ok b =>
      cases b with
      | false => cases h
      | true =>
        obtain ⟨h1, h2, h3⟩ := hspec.2.2 true rfl
        have hne : components path ≠ [] := fun hc => by
          have := h2 hc
          cases this
        have hall : ∀ p, p ≠ [] → p <+: components path → t' p = some .dir := by
          intro p hp hpre
          obtain ⟨q, hq⟩ := hpre
          have hl : p.length ≤ (components path).length := by rw [← hq]; simp
          have hpos : 0 < p.length := List.length_pos_iff.2 hp
          have := h1 (p.length - 1) (by omega)
          rw [Nat.sub_add_cancel hpos, List.nil_append] at this
          rwa [← hq, List.take_left] at this
        refine ⟨by simpa using (h3 hne).1 rfl, hall, ?_⟩
        simp [existsInTree, hall _ hne (List.prefix_refl _)]
    | err e => cases h
    | crash => cases h
    | ub => cases h

/-- **C99**: ALREADY_EXISTS means that the directory was there, and nothing changed (the root is
always there). -/
theorem C99_create_exists (ok : Nat → Bool) (path : Bytes) (t : Tree) (ht : WellFormed t) :
    ((recursivelyCreateDir ok path t).1 = .err .alreadyExists ↔ t (components path) = some .dir) ∧
    ((recursivelyCreateDir ok path t).1 = .err .alreadyExists →
      (recursivelyCreateDir ok path t).2 = t) := by
  -- what a call does when the directory is there
  have gen : ∀ (cs above : List Bytes) (tick : Nat), t (above ++ cs) = some .dir →
      createDirs ok above cs false tick t = (.ok false, t) := by
    intro cs
    induction cs with
    | nil => intro above tick _; rfl
    | cons c cs ih =>
      intro above tick h
      have hd : t (above ++ [c]) = some .dir := by
        by_cases hcs : cs = []
        · rw [hcs] at h; exact h
        · refine ht.above cs (above ++ [c]) ?_ hcs
          rw [List.append_assoc, List.singleton_append, h]
          rfl
      unfold createDirs
      rw [hd]
      exact ih _ _ (by rw [List.append_assoc, List.singleton_append]; exact h)
  have hiff : (recursivelyCreateDir ok path t).1 = .err .alreadyExists ↔
      t (components path) = some .dir := by
    constructor
    · intro h
      have hspec := createDirs_spec ok (components path) [] false 0 t
      unfold recursivelyCreateDir at h
      cases hr : createDirs ok [] (components path) false 0 t with
      | mk r t' =>
        rw [hr] at h hspec
        cases r with
        | ok b =>
          cases b with
          | true => cases h
          | false =>
            obtain ⟨h1, h2, h3⟩ := hspec.2.2 false rfl
            by_cases hc : components path = []
            · rw [hc]; exact ht.1
            · have hsome : t (components path) ≠ none := fun hn => by
                have := (h3 hc).2 (by simpa using hn)
                cases this
              have hlen : 0 < (components path).length := List.length_pos_iff.2 hc
              have hd := h1 ((components path).length - 1) (by omega)
              rw [Nat.sub_add_cancel hlen, List.take_length, List.nil_append] at hd
              rcases hspec.2.1 (components path) with h | ⟨hn, _⟩
              · rw [← h]; exact hd
              · exact absurd hn hsome
        | err e =>
          simp at h
        | crash => cases h
        | ub => cases h
    · intro h
      unfold recursivelyCreateDir
      rw [gen _ _ _ (by simpa using h)]
  refine ⟨hiff, fun h => ?_⟩
  unfold recursivelyCreateDir
  rw [gen _ _ _ (by simpa using hiff.1 h)]

/-- **C99**: the outcome when no system call fails: INTERNAL exactly if a file is in the way. -/
theorem C99_create_outcome (path : Bytes) (t : Tree) :
    (recursivelyCreateDir (fun _ => true) path t).1 = .err .internal →
      ∃ p c, p <+: components path ∧ t p = some (.file c) := by
  have gen : ∀ (cs above : List Bytes) (made : Bool) (tick : Nat) (t : Tree),
      (∀ p, p <+: cs → p ≠ [] → ∀ c, t (above ++ p) ≠ some (.file c)) →
      ∃ b, (createDirs (fun _ => true) above cs made tick t).1 = .ok b := by
    intro cs
    induction cs with
    | nil => intro above made tick t _; exact ⟨made, rfl⟩
    | cons c cs ih =>
      intro above made tick t h
      have hrest : ∀ t' : Tree, (∀ p, p ≠ above ++ [c] → t' p = t p) →
          ∀ p, p <+: cs → p ≠ [] → ∀ x, t' (above ++ [c] ++ p) ≠ some (.file x) := by
        intro t' ht' p hp hne x
        rw [ht' _ (by simpa using hne), List.append_assoc, List.singleton_append]
        refine h (c :: p) ?_ (by simp) x
        rw [List.cons_prefix_cons]
        exact ⟨rfl, hp⟩
      unfold createDirs
      cases hn : t (above ++ [c]) with
      | none =>
        dsimp only
        rw [if_pos rfl]
        refine ih _ _ _ _ (hrest _ ?_)
        intro p hp
        simp [Tree.set, hp]
      | some n =>
        cases n with
        | dir => exact ih _ _ _ _ (hrest t fun _ _ => rfl)
        | file x => exact absurd hn (h [c] (by simp) (by simp) x)
  intro herr
  by_contra hno
  obtain ⟨b, hb⟩ := gen (components path) [] false 0 t (by
    intro p hp _ c hc
    exact hno ⟨p, c, hp, by simpa using hc⟩)
  unfold recursivelyCreateDir at herr
  cases hr : createDirs (fun _ => true) [] (components path) false 0 t with
  | mk r t' =>
    rw [hr] at herr hb
    simp only at hb
    subst hb
    cases b <;> simp at herr

/-- **C99**: a second call for the same directory is refused with ALREADY_EXISTS (the comment in
file.h expects OK) and changes nothing. -/
theorem C99_create_again (ok ok' : Nat → Bool) (path : Bytes) (t : Tree) (ht : WellFormed t)
    (h : (recursivelyCreateDir ok path t).1 = .ok ()) :
    recursivelyCreateDir ok' path (recursivelyCreateDir ok path t).2 =
      (.err .alreadyExists, (recursivelyCreateDir ok path t).2) := by
  have hwf := (C99_create_keeps ok path t ht).1
  obtain ⟨hnone, hall, _⟩ := C99_create_ok ok path t h
  have hne : components path ≠ [] := fun hc => by rw [hc, ht.1] at hnone; cases hnone
  have hex := C99_create_exists ok' path _ hwf
  have h1 := hex.1.2 (hall _ hne (List.prefix_refl _))
  exact Prod.ext h1 (hex.2 h1)

/-- **C99**: `RecursivelyDeleteDir` touches nothing outside of the directory; if it returns OK
nothing of the directory is left, otherwise it returns INTERNAL and what is left is as it was. -/
theorem C99_delete (fails : Bool) (left : List Bytes → Bool) (path : Bytes) (t : Tree) :
    (∀ p, ¬ components path <+: p → (recursivelyDeleteDir fails left path t).2 p = t p) ∧
    ((recursivelyDeleteDir fails left path t).1 = .ok () →
      (∀ p, components path <+: p → (recursivelyDeleteDir fails left path t).2 p = none) ∧
      existsInTree path (recursivelyDeleteDir fails left path t).2 = .err .notFound) ∧
    ((recursivelyDeleteDir fails left path t).1 ≠ .ok () →
      (recursivelyDeleteDir fails left path t).1 = .err .internal) ∧
    (∀ p n, (recursivelyDeleteDir fails left path t).2 p = some n → t p = some n) := by
  refine ⟨?_, ?_, ?_, ?_⟩
  · intro p hp
    simp [recursivelyDeleteDir, removeAll, hp]
  · intro h
    have hf : fails = false := by
      cases fails
      · rfl
      · simp [recursivelyDeleteDir] at h
    subst hf
    refine ⟨fun p hp => by simp [recursivelyDeleteDir, removeAll, hp], ?_⟩
    simp [existsInTree, recursivelyDeleteDir, removeAll]
  · cases fails <;> simp [recursivelyDeleteDir]
  · intro p n
    simp only [recursivelyDeleteDir, removeAll]
    split
    · split
      · exact id
      · simp
    · exact id

/-- **C99**: a directory that was made can be deleted, and the rest of the tree is then as before. -/
theorem C99_create_delete (ok : Nat → Bool) (path : Bytes) (t : Tree) (ht : WellFormed t)
    (left : List Bytes → Bool) (h : (recursivelyCreateDir ok path t).1 = .ok ()) :
    (recursivelyDeleteDir false left path (recursivelyCreateDir ok path t).2).1 = .ok () ∧
    ∀ p n, t p = some n →
      (recursivelyDeleteDir false left path (recursivelyCreateDir ok path t).2).2 p = some n := by
  refine ⟨by simp [recursivelyDeleteDir], ?_⟩
  intro p n hp
  obtain ⟨hnone, _, _⟩ := C99_create_ok ok path t h
  rw [(C99_delete false left path _).1]
  · rcases (C99_create_keeps ok path t ht).2 p with h' | ⟨h', _⟩
    · rw [h', hp]
    · rw [hp] at h'; cases h'
  · rintro ⟨q, rfl⟩
    by_cases hq : q = []
    · rw [hq, List.append_nil, hnone] at hp
      cases hp
    · have := ht.above q (components path) (by rw [hp]; rfl) hq
      rw [hnone] at this
      cases this

/-- A tree with a directory `a` and a file `a/f`. -/
def toyTree : Tree := fun p =>
  if p = [] ∨ p = [[97]] then some .dir else if p = [[97], [102]] then some (.file [1]) else none

/-- `/a/b/c` is made below `a`; `/a/f/c` is refused. -/
example : (recursivelyCreateDir (fun _ => true) [47, 97, 47, 98, 47, 99] toyTree).1 = .ok () ∧
    (recursivelyCreateDir (fun _ => true) [47, 97, 47, 98, 47, 99] toyTree).2 [[97], [98]] =
      some .dir ∧
    (recursivelyCreateDir (fun _ => true) [47, 97, 47, 102, 47, 99] toyTree).1 = .err .internal ∧
    (recursivelyCreateDir (fun _ => true) [97, 47] toyTree).1 = .err .alreadyExists := by
  decide +kernel

theorem toyTree_wellFormed : WellFormed toyTree := by
  refine ⟨by simp [toyTree], ?_⟩
  intro p c h
  unfold toyTree at h ⊢
  by_cases h1 : p ++ [c] = [[97]]
  · have : p = [] := by
      have := List.append_inj' (s₁ := p) (s₂ := []) (t₁ := [c]) (t₂ := [[97]]) (by simpa using h1) rfl
      exact this.1
    simp [this]
  · by_cases h2 : p ++ [c] = [[97], [102]]
    · have : p = [[97]] := by
        have := List.append_inj' (s₁ := p) (s₂ := [[97]]) (t₁ := [c]) (t₂ := [[102]])
          (by simpa using h2) rfl
        exact this.1
      simp [this]
    · simp [h1, h2] at h

end PJC.File
