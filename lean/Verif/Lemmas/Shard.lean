import Verif.Lemmas.Merge
import Verif.Props.RecordIO
import Mathlib.Data.List.Range
/-
The sharding writer and the shard merger.
-/
namespace PJC.Rec

set_option linter.unusedSectionVars false

variable {κ : Type} [LinearOrder κ]

theorem shardName_inj {p : Bytes} {i j : Nat} (h : shardName p i = shardName p j) : i = j := by
  have h1 := List.append_cancel_left h
  have h2 := (Data.natToDec_digits i).2.2
  have h3 := (Data.natToDec_digits j).2.2
  rw [← h2, ← h3, h1]

theorem shardName_ne (p : Bytes) (i : Nat) : shardName p i ≠ p := by
  intro h
  have h1 : Data.natToDec i = [] := by
    have : shardName p i = p ++ [] := by rw [h]; simp
    exact List.append_cancel_left this
  exact (Data.natToDec_digits i).2.1 h1

/-- `g` is in nondecreasing key order. -/
def SortedBy (key : Bytes → κ) (g : List Bytes) : Prop := (g.map key).Pairwise (· ≤ ·)

theorem sorted_spec (s : Shard κ) : SortedBy s.key s.sorted ∧ s.sorted.Perm s.cache := by
  constructor
  · have := List.pairwise_mergeSort (le := fun a b => decide (s.key a ≤ s.key b))
      (by intro a b c h1 h2; simp only [decide_eq_true_eq] at *; exact le_trans h1 h2)
      (by intro a b; simp only [Bool.or_eq_true, decide_eq_true_eq]; exact le_total _ _) s.cache
    unfold SortedBy Shard.sorted
    rw [List.pairwise_map]
    exact this.imp (by intro a b h; simpa using h)
  · exact List.mergeSort_perm _ _

theorem writeLoop_ok {Ω : Faults} : ∀ (rs : List Bytes) (o o' : Out),
    Shard.writeLoop Ω rs o = (.ok true, o') →
    o.writeAll (fun r o => o.writeRecord Ω r) rs = (.ok (), o') := by
  intro rs
  induction rs with
  | nil => intro o o' h; simp only [Shard.writeLoop, Prod.mk.injEq] at h; rw [Out.writeAll, h.2]
  | cons r rs ih =>
    intro o o' h
    rw [Shard.writeLoop] at h
    rw [Out.writeAll]
    split at h
    · rename_i o1 h1
      rw [h1]
      exact ih _ _ h
    · cases h
    · cases h
    · cases h

/-- What a flush that reports success has done. -/
theorem flush_ok {Ω : Faults} {s s' : Shard κ} {u : Unit} (h : s.flush Ω = (.ok u, s')) :
    s.healthy = true ∧ ((s.cache = [] ∧ s' = s) ∨
      (s.cache ≠ [] ∧ (∀ r ∈ s.sorted, r.length < 2 ^ 31) ∧ s.out.handle = none ∧
        ∃ w, w.files s.name = some (fileBytes s.sorted) ∧
          (∀ n, n ≠ s.name → w.files n = s.out.world.files n) ∧
          s' = { s with
            cache := [], bytes := 0, idx := s.idx + 1, name := shardName s.pre (s.idx + 1)
            shards := s.shards ++ [s.name], healthy := true
            out := { handle := none, world := w } })) := by
  unfold Shard.flush at h
  split at h
  · cases h
  · rename_i hh
    have hh' : s.healthy = true := by simpa using hh
    refine ⟨hh', ?_⟩
    split at h
    · rename_i hc
      simp only [Prod.mk.injEq] at h
      exact .inl ⟨hc, h.2.symm⟩
    · rename_i hc
      right
      refine ⟨hc, ?_⟩
      split at h
      · rename_i o1 h1
        obtain ⟨hn, rfl⟩ := Out.open_ok h1
        split at h
        · rename_i written o2 h2
          simp only [Prod.mk.injEq] at h
          obtain ⟨h3, h4⟩ := h
          cases written with
          | false => simp at h3
          | true =>
            simp only [if_true] at h3
            split at h3
            · rename_i hcl
              obtain ⟨a, b, c, d⟩ := Out.writeAll_ok _ _ _ _ s.name [] (writeLoop_ok _ _ _ h2) rfl
                (by simp)
              obtain ⟨nm, e1, e2⟩ := Out.close_ok (eq_pair hcl)
              refine ⟨a, hn, o2.world.next, by simpa using c, ?_, ?_⟩
              · intro n hn
                rw [World.next_files, d n hn, World.set_other _ _ hn]
              · rw [← h4, e2]
            · cases h3
        · cases h
        · cases h
        · cases h
      · cases h

/-- The state of a writer with prefix `p` to which the records `rs` were written, without any
error, in the file system `w0`; the shards written so far hold `groups`. -/
structure ShardInv (key : Bytes → κ) (p : Bytes) (w0 : World) (rs : List Bytes)
    (groups : List (List Bytes)) (s : Shard κ) : Prop where
  keyEq : s.key = key
  isOpen : s.isOpen = true
  healthy : s.healthy = true
  pre : s.pre = p
  name : s.name = shardName p s.idx
  handle : s.out.handle = none
  idx : s.idx = groups.length
  shards : s.shards = (List.range groups.length).map (shardName p)
  files : ∀ i g, groups[i]? = some g → s.out.world.files (shardName p i) = some (fileBytes g)
  sorted : ∀ g ∈ groups, SortedBy key g
  nonempty : ∀ g ∈ groups, g ≠ []
  short : ∀ g ∈ groups, ∀ r ∈ g, r.length < 2 ^ 31
  perm : (groups.flatten ++ s.cache).Perm rs
  other : ∀ n, (∀ i, i < groups.length → n ≠ shardName p i) → s.out.world.files n = w0.files n

theorem ShardInv.flush {key : Bytes → κ} {p : Bytes} {w0 : World} {rs : List Bytes}
    {groups : List (List Bytes)} {s s' : Shard κ} {Ω : Faults} {u : Unit}
    (hi : ShardInv key p w0 rs groups s) (h : s.flush Ω = (.ok u, s')) :
    ∃ groups', ShardInv key p w0 rs groups' s' ∧ s'.cache = [] := by
  obtain ⟨-, ⟨hc, rfl⟩ | ⟨hc, hlen, hh, w, h1, h2, rfl⟩⟩ := flush_ok h
  · exact ⟨groups, hi, hc⟩
  · obtain ⟨so, sp⟩ := sorted_spec s
    refine ⟨groups ++ [s.sorted], ⟨hi.keyEq, hi.isOpen, rfl, hi.pre, ?_, rfl, ?_, ?_, ?_, ?_, ?_,
      ?_, ?_, ?_⟩, rfl⟩
    · simp only [hi.pre]
    · simp [hi.idx]
    · simp [hi.shards, List.range_succ, hi.name, hi.idx]
    · intro i g hg
      simp only
      rw [List.getElem?_append] at hg
      split at hg
      · rename_i hlt
        rw [h2 _ ?_]
        · exact hi.files i g hg
        · rw [hi.name]
          intro e
          have := shardName_inj e
          rw [hi.idx] at this
          omega
      · rename_i hge
        have hi0 : i = groups.length := by
          by_contra hne
          rw [List.getElem?_eq_none (by simp; omega)] at hg
          cases hg
        subst hi0
        simp only [Nat.sub_self, List.getElem?_cons_zero, Option.some.injEq] at hg
        subst hg
        rw [← hi.idx, ← hi.name]
        exact h1
    · intro g hg
      rcases List.mem_append.1 hg with hg | hg
      · exact hi.sorted g hg
      · rw [List.mem_singleton.1 hg, ← hi.keyEq]; exact so
    · intro g hg
      rcases List.mem_append.1 hg with hg | hg
      · exact hi.nonempty g hg
      · rw [List.mem_singleton.1 hg]
        intro e
        rw [e] at sp
        exact hc (List.nil_perm.1 sp)
    · intro g hg
      rcases List.mem_append.1 hg with hg | hg
      · exact hi.short g hg
      · rw [List.mem_singleton.1 hg]; exact hlen
    · simp only [List.flatten_append, List.flatten_cons, List.flatten_nil, List.append_nil]
      exact (sp.append_left _).trans hi.perm
    · intro n hn
      simp only
      rw [h2 n (by rw [hi.name, hi.idx]; exact hn _ (by simp)),
        hi.other n (fun i hi => hn i (by simp; omega))]

theorem ShardInv.write {key : Bytes → κ} {p : Bytes} {w0 : World} {rs : List Bytes}
    {groups : List (List Bytes)} {s s' : Shard κ} {Ω : Faults} {r : Bytes} {u : Unit}
    (hi : ShardInv key p w0 rs groups s) (h : s.write Ω r = (.ok u, s')) :
    ∃ groups', ShardInv key p w0 (rs ++ [r]) groups' s' := by
  unfold Shard.write at h
  simp only [hi.isOpen, hi.healthy, Bool.not_true, Bool.false_eq_true, if_false] at h
  have hfl : ∃ s1 groups', ShardInv key p w0 rs groups' s1 ∧
      s' = { s1 with bytes := toInt32 (s1.bytes + r.length), cache := s1.cache ++ [r] } := by
    by_cases hb : s.bytes > s.maxBytes
    · rw [if_pos hb] at h
      cases hf : s.flush Ω with
      | mk st s1 =>
        rw [hf] at h
        cases st with
        | ok u =>
          simp only [Prod.mk.injEq] at h
          obtain ⟨groups', hg, -⟩ := hi.flush hf
          exact ⟨s1, groups', hg, h.2.symm⟩
        | err e => simp at h
        | crash => simp at h
        | ub => simp at h
    · rw [if_neg hb] at h
      simp only [Prod.mk.injEq] at h
      exact ⟨s, groups, hi, h.2.symm⟩
  obtain ⟨s1, groups', hg, rfl⟩ := hfl
  refine ⟨groups', ⟨hg.keyEq, hg.isOpen, hg.healthy, hg.pre, hg.name, hg.handle, hg.idx, hg.shards,
    hg.files, hg.sorted, hg.nonempty, hg.short, ?_, hg.other⟩⟩
  rw [← List.append_assoc]
  exact hg.perm.append_right _

/-- A sequence of `Write` calls with all their results. -/
def Shard.writes (Ω : Faults) : List Bytes → Shard κ → List (Res Unit) × Shard κ
  | [], s => ([], s)
  | r :: rs, s =>
    let (st, s) := s.write Ω r
    let (sts, s) := Shard.writes Ω rs s
    (st :: sts, s)

theorem ShardInv.writes {key : Bytes → κ} {p : Bytes} {w0 : World} {Ω : Faults} :
    ∀ (rs : List Bytes) (s s' : Shard κ) (done : List Bytes) (groups : List (List Bytes))
      (sts : List (Res Unit)), ShardInv key p w0 done groups s →
    s.writes Ω rs = (sts, s') → (∀ st ∈ sts, st = .ok ()) →
    ∃ groups', ShardInv key p w0 (done ++ rs) groups' s' := by
  intro rs
  induction rs with
  | nil =>
    intro s s' done groups sts hi h _
    simp only [Shard.writes, Prod.mk.injEq] at h
    obtain ⟨-, rfl⟩ := h
    exact ⟨groups, by simpa using hi⟩
  | cons r rs ih =>
    intro s s' done groups sts hi h hok
    simp only [Shard.writes, Prod.mk.injEq] at h
    obtain ⟨rfl, rfl⟩ := h
    have h1 : (s.write Ω r).1 = .ok () := hok _ (by simp)
    obtain ⟨groups', hg⟩ := hi.write (eq_pair h1)
    obtain ⟨g2, hg2⟩ := ih _ _ _ _ _ hg rfl (fun st hst => hok st (by simp [hst]))
    exact ⟨g2, by simpa using hg2⟩

theorem ShardInv.close {key : Bytes → κ} {p : Bytes} {w0 : World} {rs : List Bytes}
    {groups : List (List Bytes)} {s s' : Shard κ} {Ω : Faults} {shards : List Bytes}
    (hi : ShardInv key p w0 rs groups s) (h : s.close Ω = (.ok shards, s')) :
    ∃ groups' : List (List Bytes), shards = (List.range groups'.length).map (shardName p) ∧
      (∀ i g, groups'[i]? = some g →
        s'.out.world.files (shardName p i) = some (fileBytes g)) ∧
      (∀ g ∈ groups', SortedBy key g) ∧ (∀ g ∈ groups', g ≠ []) ∧
      (∀ g ∈ groups', ∀ r ∈ g, r.length < 2 ^ 31) ∧ groups'.flatten.Perm rs ∧
      (∀ n, (∀ i, i < groups'.length → n ≠ shardName p i) →
        s'.out.world.files n = w0.files n) ∧ s'.out.handle = none := by
  unfold Shard.close at h
  simp only [Prod.mk.injEq] at h
  obtain ⟨h1, rfl⟩ := h
  unfold Shard.tryClose at h1 ⊢
  simp only [hi.isOpen, Bool.not_true, Bool.false_eq_true, if_false] at h1 ⊢
  cases hf : s.flush Ω with
  | mk st s1 =>
    rw [hf] at h1
    cases st with
    | ok u =>
      simp only [Res.ok.injEq] at h1
      obtain ⟨g', hg, hc⟩ := hi.flush hf
      refine ⟨g', ?_, hg.files, hg.sorted, hg.nonempty, hg.short, ?_, hg.other, hg.handle⟩
      · rw [← h1, hg.shards]
      · have := hg.perm
        rwa [hc, List.append_nil] at this
    | err e => simp at h1
    | crash => simp at h1
    | ub => simp at h1

/-- A writer that was just given a prefix: a new one, or one that was closed before. -/
theorem ShardInv.start (key : Bytes → κ) (p : Bytes) (s : Shard κ) (hk : s.key = key)
    (h1 : s.cache = []) (h2 : s.idx = 0) (h3 : s.shards = []) (h4 : s.healthy = true)
    (h5 : s.out.handle = none) : ShardInv key p s.out.world [] [] (s.setPrefix p) := by
  refine ⟨hk, rfl, h4, rfl, rfl, h5, h2, h3, ?_, ?_, ?_, ?_, ?_, ?_⟩ <;>
    simp [Shard.setPrefix, h1]

/-! ### Without faults -/

theorem writeLoop_none : ∀ (rs : List Bytes) (o : Out) (name : Bytes), o.handle = some name →
    (∀ r ∈ rs, r.length < 2 ^ 31) →
    ∃ o', Shard.writeLoop .none rs o = (.ok true, o') ∧ o'.handle = some name := by
  intro rs
  induction rs with
  | nil => intro o name h _; exact ⟨o, rfl, h⟩
  | cons r rs ih =>
    intro o name hh h
    have hw : ∃ o1, o.writeRecord .none r = (.ok (), o1) ∧ o1.handle = some name := by
      rw [Out.writeRecord, encodeRecord_eq (h r (by simp))]
      simp only [Out.write, hh, Faults.none, if_true]
      exact ⟨_, rfl, rfl⟩
    obtain ⟨o1, hw, h1⟩ := hw
    rw [Shard.writeLoop, hw]
    exact ih o1 name h1 (fun r hr => h r (List.mem_cons_of_mem _ hr))

theorem flush_none (s : Shard κ) (hh : s.healthy = true) (ho : s.out.handle = none)
    (hlen : ∀ r ∈ s.cache, r.length < 2 ^ 31) : (s.flush .none).1 = .ok () := by
  unfold Shard.flush
  simp only [hh, Bool.not_true, Bool.false_eq_true, if_false]
  by_cases hc : s.cache = []
  · simp [hc]
  · simp only [hc, if_false]
    have h1 : s.out.open .none s.name =
        (.ok (), ⟨some s.name, s.out.world.set s.name (some [])⟩) := by
      simp [Out.open, ho, Faults.none]
    obtain ⟨o', h2, h3⟩ := writeLoop_none s.sorted ⟨some s.name, s.out.world.set s.name (some [])⟩
      s.name rfl (fun r hr => hlen r ((sorted_spec s).2.mem_iff.1 hr))
    rw [h1]
    simp only [h2]
    simp [Out.close, h3, Faults.none]

theorem writes_none {key : Bytes → κ} {p : Bytes} {w0 : World} :
    ∀ (rs : List Bytes) (s : Shard κ) (done : List Bytes) (groups : List (List Bytes)),
    ShardInv key p w0 done groups s → (∀ r ∈ done ++ rs, r.length < 2 ^ 31) →
    ∀ st ∈ (s.writes .none rs).1, st = .ok () := by
  intro rs
  induction rs with
  | nil => intro s done groups _ _ st hst; simp [Shard.writes] at hst
  | cons r rs ih =>
    intro s done groups hi hlen st hst
    have hcache : ∀ x ∈ s.cache, x.length < 2 ^ 31 := fun x hx =>
      hlen x (by
        have := hi.perm.mem_iff (a := x)
        simp only [List.mem_append] at this ⊢
        exact .inl (this.1 (.inr hx)))
    have h1 : (s.write .none r).1 = .ok () := by
      unfold Shard.write
      simp only [hi.isOpen, hi.healthy, Bool.not_true, Bool.false_eq_true, if_false]
      by_cases hb : s.bytes > s.maxBytes
      · simp only [hb, if_true]
        rw [eq_pair (flush_none s hi.healthy hi.handle hcache)]
      · simp [hb]
    obtain ⟨g, hg⟩ := hi.write (eq_pair h1)
    simp only [Shard.writes, List.mem_cons] at hst
    rcases hst with rfl | hst
    · exact h1
    · exact ih _ _ _ hg (by simpa using hlen) st hst

theorem close_none {key : Bytes → κ} {p : Bytes} {w0 : World} {rs : List Bytes}
    {groups : List (List Bytes)} {s : Shard κ} (hi : ShardInv key p w0 rs groups s)
    (hlen : ∀ r ∈ rs, r.length < 2 ^ 31) : ∃ shards, (s.close .none).1 = .ok shards := by
  have hcache : ∀ x ∈ s.cache, x.length < 2 ^ 31 := fun x hx =>
    hlen x (by
      have := hi.perm.mem_iff (a := x)
      simp only [List.mem_append] at this
      exact this.1 (.inr hx))
  unfold Shard.close Shard.tryClose
  simp only [hi.isOpen, Bool.not_true, Bool.false_eq_true, if_false]
  rw [eq_pair (flush_none s hi.healthy hi.handle hcache)]
  exact ⟨_, rfl⟩

/-! ### The shard merger -/

/-- The merging loop writes what the reader returns. -/
theorem mergeLoop_eq (Ω : Faults) (junk : Nat) (pick : Pick κ) :
    ∀ (fuel : Nat) (m m' : Merge κ) (o : Out) (out : List (Bytes × Nat)),
    m.readAll junk pick fuel = (out, .ok (), m') →
    ∃ m'', mergeLoop Ω junk pick fuel m o =
        ((o.writeAll (fun r o => o.writeRecord Ω r) (out.map Prod.fst)).1, m'',
          (o.writeAll (fun r o => o.writeRecord Ω r) (out.map Prod.fst)).2) ∧
      ((o.writeAll (fun r o => o.writeRecord Ω r) (out.map Prod.fst)).1 = .ok () → m'' = m') := by
  intro fuel
  induction fuel with
  | zero => intro m m' o out h; simp [Merge.readAll] at h
  | succ fuel ih =>
    intro m m' o out h
    rw [Merge.readAll] at h
    cases hm : m.hasMore with
    | mk st m1 =>
      rw [hm] at h
      cases st with
      | err e => simp at h
      | crash => simp at h
      | ub => simp at h
      | ok b =>
        cases b with
        | false =>
          simp only [Prod.mk.injEq] at h
          obtain ⟨rfl, -, rfl⟩ := h
          refine ⟨m1, ?_, fun _ => rfl⟩
          rw [mergeLoop, hm]
          rfl
        | true =>
          simp only at h
          cases hr : m1.read junk pick with
          | mk st m2 =>
            rw [hr] at h
            cases st with
            | err e => simp at h
            | crash => simp at h
            | ub => simp at h
            | ok d =>
              simp only at h
              cases hrec : Merge.readAll junk pick fuel m2 with
              | mk ds x =>
                obtain ⟨st, m3⟩ := x
                rw [hrec] at h
                simp only [Prod.mk.injEq] at h
                obtain ⟨rfl, rfl, rfl⟩ := h
                rw [mergeLoop, hm]
                simp only [hr, List.map_cons, Out.writeAll]
                cases hw : o.writeRecord Ω d.1 with
                | mk st o1 =>
                  cases st with
                  | ok u => exact ih m2 _ o1 ds hrec
                  | err e => exact ⟨m2, rfl, by simp⟩
                  | crash => exact ⟨m2, rfl, by simp⟩
                  | ub => exact ⟨m2, rfl, by simp⟩

/-- Reading everything through a reader opened on sorted files. -/
theorem open_readAll {key : Bytes → κ} (junk : Nat) {pick : Pick κ} (hp : pick.Min)
    {files : Bytes → Option Bytes} {names : List Bytes} {Rs : List (List Bytes)}
    (h : List.Forall₂ (fun n rs => files n = some (fileBytes rs)) names Rs)
    (hlen : ∀ R ∈ Rs, ∀ r ∈ R, r.length < 2 ^ 31) (hs : ∀ R ∈ Rs, SortedBy key R)
    (m0 : Merge κ) (hr : m0.readers = []) (hh : m0.heap = []) :
    ∃ m out m', m0.open files names key = (.ok (), m) ∧
      m.readAll junk pick (m.size + 1) = (out, .ok (), m') ∧
      SortedBy key (out.map Prod.fst) ∧
      (∀ i, (out.filter fun x => x.2 = i).map Prod.fst = Rs.getD i []) ∧
      (∀ x ∈ out, x.2 < Rs.length) ∧
      (out.map Prod.fst).Perm Rs.flatten ∧
      m'.close = (.ok (), { m' with readers := [], heap := [] }) := by
  obtain ⟨m, e1, e2, e3, e4⟩ := open_ok h hlen key m0 hr hh
  have hp0 : ∀ j, pend m.heap Rs j = Rs.getD j [] := by intro j; simp [pend, e3]
  obtain ⟨out, m', k1, k2, k3, k4, k5, k6, k7⟩ := mergeReadAll_spec junk hp (m.size + 1) m Rs e2
    (.inl e3) (by
      intro j
      rw [hp0, List.getD_eq_getElem?_getD]
      cases hj : Rs[j]? with
      | none => simp
      | some R => exact hs R (List.mem_of_getElem? hj)) (size_open e3 e4)
  refine ⟨m, out, m', e1, k1, ?_, ?_, k4, ?_, close_ok k6⟩
  · unfold SortedBy
    rw [List.map_map]
    exact k2
  · intro i
    rw [k3, hp0]
  · rw [e3] at k5
    simpa using k5

/-- `Merge` over existing sorted files: what a call that succeeds has done. -/
theorem shardMerge_ok {key : Bytes → κ} {junk : Nat} {pick : Pick κ} (hp : pick.Min)
    {Ω : Faults} {names : List Bytes} {output : Bytes} {w w' : World} {Rs : List (List Bytes)}
    {u : Unit} (hf : List.Forall₂ (fun n rs => w.files n = some (fileBytes rs)) names Rs)
    (hlen : ∀ R ∈ Rs, ∀ r ∈ R, r.length < 2 ^ 31) (hs : ∀ R ∈ Rs, SortedBy key R)
    (h : shardMerge Ω junk pick key names output w = (.ok u, w')) :
    ∃ out, w'.files output = some (fileBytes out) ∧ SortedBy key out ∧ out.Perm Rs.flatten ∧
      ∀ n, n ≠ output → w'.files n = w.files n := by
  -- the file system after the first part
  have hpre : ∃ w1, (∀ n, n ≠ output → w1.files n = w.files n) ∧
      List.Forall₂ (fun n rs => w1.files n = some (fileBytes rs)) names Rs ∧
      (match Merge.open w1.files names key Merge.init with
        | (.ok _, m) =>
          match Out.open Ω output ⟨none, w1⟩ with
          | (.ok _, o) =>
            match mergeLoop Ω junk pick (m.size + 1) m o with
            | (.ok _, m, o) =>
              match o.close Ω with
              | (.ok _, o) => ((m.close).1, o.world)
              | (st, o) => (st, o.world)
            | (st, _, o) => (st, o.world)
          | (st, o) => (st, o.world)
        | (st, _) => (st, w1)) = (.ok u, w') := by
    unfold shardMerge at h
    by_cases hn : names = []
    · subst hn
      simp only [if_true] at h
      cases ho : Out.open Ω output ⟨none, w⟩ with
      | mk st o1 =>
        rw [ho] at h
        cases st with
        | ok v =>
          obtain ⟨-, rfl⟩ := Out.open_ok ho
          simp only at h
          cases hc : Out.close Ω ⟨some output, w.set output (some [])⟩ with
          | mk st o2 =>
            rw [hc] at h
            cases st with
            | ok v =>
              obtain ⟨nm, -, rfl⟩ := Out.close_ok hc
              refine ⟨(w.set output (some [])).next, ?_, ?_, h⟩
              · intro n hn
                simp [World.set_other _ _ hn]
              · cases hf; exact .nil
            | err e => simp at h
            | crash => simp at h
            | ub => simp at h
        | err e => simp at h
        | crash => simp at h
        | ub => simp at h
    · simp only [hn, if_false] at h
      exact ⟨w, fun _ _ => rfl, hf, h⟩
  obtain ⟨w1, hsame, hf1, h⟩ := hpre
  obtain ⟨m, out, m', e1, e2, e3, e4, e5, e6, e7⟩ :=
    open_readAll junk hp hf1 hlen hs Merge.init rfl rfl
  rw [e1] at h
  simp only at h
  cases ho : Out.open Ω output ⟨none, w1⟩ with
  | mk st o1 =>
    rw [ho] at h
    cases st with
    | err e => simp at h
    | crash => simp at h
    | ub => simp at h
    | ok v =>
      obtain ⟨-, rfl⟩ := Out.open_ok ho
      simp only at h
      obtain ⟨m'', g1, g2⟩ := mergeLoop_eq Ω junk pick (m.size + 1) m m'
        ⟨some output, w1.set output (some [])⟩ out e2
      rw [g1] at h
      cases hw : Out.writeAll (fun r o => o.writeRecord Ω r) (out.map Prod.fst)
          ⟨some output, w1.set output (some [])⟩ with
      | mk st o2 =>
        rw [hw] at h g2
        cases st with
        | err e => simp at h
        | crash => simp at h
        | ub => simp at h
        | ok v =>
          rw [g2 rfl] at h
          simp only at h
          obtain ⟨a, b, c, d⟩ := Out.writeAll_ok _ _ _ _ output [] hw rfl (by simp)
          cases hc : o2.close Ω with
          | mk st o3 =>
            rw [hc] at h
            cases st with
            | err e => simp at h
            | crash => simp at h
            | ub => simp at h
            | ok v =>
              obtain ⟨nm, -, rfl⟩ := Out.close_ok hc
              simp only [Prod.mk.injEq] at h
              obtain ⟨-, rfl⟩ := h
              refine ⟨out.map Prod.fst, by simpa using c, e3, e6, ?_⟩
              intro n hn
              simp only [World.next_files]
              rw [d n hn, World.set_other _ _ hn, hsame n hn]

theorem writeAll_none (name : Bytes) : ∀ (rs : List Bytes) (o : Out),
    (∀ r ∈ rs, r.length < 2 ^ 31) → o.handle = some name →
    ∃ o', o.writeAll (fun r o => o.writeRecord .none r) rs = (.ok (), o') ∧
      o'.handle = some name := by
  intro rs
  induction rs with
  | nil => intro o _ hh; exact ⟨o, rfl, hh⟩
  | cons r rs ih =>
    intro o h hh
    have hw : ∃ o1, o.writeRecord .none r = (.ok (), o1) ∧ o1.handle = some name := by
      rw [Out.writeRecord, encodeRecord_eq (h r (by simp))]
      simp only [Out.write, hh, Faults.none, if_true]
      exact ⟨_, rfl, rfl⟩
    obtain ⟨o1, hw, h1⟩ := hw
    simp only [Out.writeAll, hw]
    exact ih o1 (fun r hr => h r (List.mem_cons_of_mem _ hr)) h1

theorem shardMerge_none {key : Bytes → κ} {junk : Nat} {pick : Pick κ} (hp : pick.Min)
    {names : List Bytes} {output : Bytes} {w : World} {Rs : List (List Bytes)}
    (hf : List.Forall₂ (fun n rs => w.files n = some (fileBytes rs)) names Rs)
    (hlen : ∀ R ∈ Rs, ∀ r ∈ R, r.length < 2 ^ 31) (hs : ∀ R ∈ Rs, SortedBy key R) :
    (shardMerge .none junk pick key names output w).1 = .ok () := by
  have main : ∀ w1 : World,
      List.Forall₂ (fun n rs => w1.files n = some (fileBytes rs)) names Rs →
      (match Merge.open w1.files names key Merge.init with
        | (.ok _, m) =>
          match Out.open .none output ⟨none, w1⟩ with
          | (.ok _, o) =>
            match mergeLoop .none junk pick (m.size + 1) m o with
            | (.ok _, m, o) =>
              match o.close .none with
              | (.ok _, o) => ((m.close).1, o.world)
              | (st, o) => (st, o.world)
            | (st, _, o) => (st, o.world)
          | (st, o) => (st, o.world)
        | (st, _) => (st, w1)).1 = .ok () := by
    intro w1 hf1
    obtain ⟨m, out, m', e1, e2, e3, e4, e5, e6, e7⟩ :=
      open_readAll junk hp hf1 hlen hs Merge.init rfl rfl
    have ho : Out.open .none output ⟨none, w1⟩ =
      (.ok (), ⟨some output, w1.set output (some [])⟩) := rfl
    obtain ⟨m'', g1, g2⟩ := mergeLoop_eq .none junk pick (m.size + 1) m m'
      ⟨some output, w1.set output (some [])⟩ out e2
    obtain ⟨o', k1, k2⟩ := writeAll_none output (out.map Prod.fst)
      ⟨some output, w1.set output (some [])⟩ (by
        intro r hr
        obtain ⟨R, hR, hrR⟩ := List.mem_flatten.1 (e6.mem_iff.1 hr)
        exact hlen R hR r hrR) rfl
    rw [k1] at g1 g2
    have hc : o'.close .none = (.ok (), ⟨none, o'.world.next⟩) := by
      simp [Out.close, k2, Faults.none]
    rw [e1]
    simp only [ho, g1, hc]
    rw [g2 rfl, e7]
  unfold shardMerge
  by_cases hn : names = []
  · subst hn
    cases hf
    have ho : Out.open .none output ⟨none, w⟩ =
      (.ok (), ⟨some output, w.set output (some [])⟩) := rfl
    have hc : Out.close .none ⟨some output, w.set output (some [])⟩ =
      (.ok (), ⟨none, (w.set output (some [])).next⟩) := rfl
    simp only [if_true, ho, hc]
    exact main _ .nil
  · simp only [hn, if_false]
    exact main w hf

/-- Deleting. -/
theorem deleteAll_ok {Ω : Faults} : ∀ (names : List Bytes) (w w' : World) (u : Unit),
    deleteAll Ω names w = (.ok u, w') →
    (∀ n ∈ names, w'.files n = none) ∧ ∀ n, n ∉ names → w'.files n = w.files n := by
  intro names
  induction names with
  | nil =>
    intro w w' u h
    simp only [deleteAll, Prod.mk.injEq] at h
    obtain ⟨-, rfl⟩ := h
    simp
  | cons f fs ih =>
    intro w w' u h
    rw [deleteAll] at h
    have hd : ∃ v w1, deleteFile Ω f w = (.ok v, w1) ∧ deleteAll Ω fs w1 = (.ok u, w') := by
      cases hx : deleteFile Ω f w with
      | mk st w1 => rw [hx] at h; cases st <;> simp_all
    obtain ⟨v, w1, h1, h2⟩ := hd
    have hw1 : w1 = w.set f none := by
      unfold deleteFile at h1
      split at h1
      · cases h1; rfl
      · cases h1
    subst hw1
    obtain ⟨g1, g2⟩ := ih _ _ _ h2
    refine ⟨?_, ?_⟩
    · intro n hn
      by_cases hfs : n ∈ fs
      · exact g1 n hfs
      · rw [g2 n hfs]
        rcases List.mem_cons.1 hn with rfl | hn
        · simp
        · exact absurd hn hfs
    · intro n hn
      rw [List.mem_cons, not_or] at hn
      rw [g2 n hn.2, World.set_other _ _ hn.1]

theorem deleteAll_none : ∀ (names : List Bytes) (w : World), names.Nodup →
    (∀ n ∈ names, (w.files n).isSome) → (deleteAll .none names w).1 = .ok () := by
  intro names
  induction names with
  | nil => intro w _ _; rfl
  | cons f fs ih =>
    intro w hn h
    rw [List.nodup_cons] at hn
    have h1 : deleteFile .none f w = (.ok (), w.set f none) := by
      simp [deleteFile, h f (by simp), Faults.none]
    rw [deleteAll, h1]
    refine ih _ hn.2 ?_
    intro n hnf
    rw [World.set_other _ _ (by rintro rfl; exact hn.1 hnf)]
    exact h n (List.mem_cons_of_mem _ hnf)

end PJC.Rec
