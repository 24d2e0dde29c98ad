import Verif.Model.ProcessFile
import Verif.Props.Shard
/-
C47, C48: processing a record file with several threads; joining paths.
-/
namespace PJC.Rec

set_option linter.unusedSectionVars false

variable {κ I O : Type} [LinearOrder κ]

/-! ### The threads -/

/-- All results of `g`, or its first failure. -/
def mapRes {α β : Type} (g : α → Res β) : List α → Res (List β)
  | [] => .ok []
  | x :: xs => do
    let y ← g x
    let ys ← mapRes g xs
    .ok (y :: ys)

theorem mapRes_append {α β : Type} (g : α → Res β) : ∀ (xs ys : List α),
    mapRes g (xs ++ ys) = (do let a ← mapRes g xs; let b ← mapRes g ys; .ok (a ++ b)) := by
  intro xs
  induction xs with
  | nil => intro ys; cases h : mapRes g ys <;> simp [mapRes, h]
  | cons x xs ih =>
    intro ys
    simp only [List.cons_append, mapRes, ih]
    cases g x <;> simp only [Res.ok_bind, Res.err_bind, Res.crash_bind, Res.ub_bind]
    cases mapRes g xs <;> simp only [Res.ok_bind, Res.err_bind, Res.crash_bind, Res.ub_bind]
    cases mapRes g ys <;> simp only [Res.ok_bind, Res.err_bind, Res.crash_bind, Res.ub_bind,
      List.cons_append]

theorem mapRes_ok {α β : Type} {g : α → Res β} : ∀ {xs : List α} {ys : List β},
    mapRes g xs = .ok ys ↔ List.Forall₂ (fun x y => g x = .ok y) xs ys := by
  intro xs
  induction xs with
  | nil => intro ys; cases ys <;> simp [mapRes]
  | cons x xs ih =>
    intro ys
    rw [mapRes]
    constructor
    · intro h
      rw [Res.bind_eq_ok] at h
      obtain ⟨y, hy, h⟩ := h
      rw [Res.bind_eq_ok] at h
      obtain ⟨zs, hzs, h⟩ := h
      cases h
      exact .cons hy (ih.1 hzs)
    · intro h
      cases h with
      | cons h1 h2 => rw [h1, Res.ok_bind, ih.2 h2, Res.ok_bind]

/-- The calls on the records of a chunk. -/
def calls (chunk : List I) (base : Nat) : List (I × Nat) := chunk.zipIdx base

theorem sliceLoop_eq (f : Nat → I → Res O) (chunk : List I) (base : Nat) : ∀ (n i : Nat),
    i + n ≤ chunk.length → sliceLoop f chunk base n i =
      mapRes (fun c => f c.2 c.1) (((calls chunk base).drop i).take n) := by
  intro n
  induction n with
  | zero => intro i _; simp [sliceLoop, mapRes]
  | succ n ih =>
    intro i hi
    have hlt : i < chunk.length := by omega
    have hlt' : i < (calls chunk base).length := by simpa [calls] using hlt
    rw [sliceLoop, List.getElem?_eq_getElem hlt]
    simp only []
    rw [ih (i + 1) (by omega), List.drop_eq_getElem_cons hlt', List.take_succ_cons, mapRes]
    simp only [calls, List.getElem_zipIdx]

theorem slices_flatten {α : Type} (P : List α) (per : Nat) : ∀ T,
    ((List.range T).map fun j =>
      (P.drop (j * per)).take (min ((j + 1) * per) P.length - j * per)).flatten =
    P.take (T * per) := by
  intro T
  induction T with
  | zero => simp
  | succ T ih =>
    rw [List.range_succ, List.map_append, List.flatten_append, ih]
    simp only [List.map_cons, List.map_nil, List.flatten_cons, List.flatten_nil, List.append_nil]
    rw [Nat.succ_mul, List.take_add]
    congr 1
    by_cases h : T * per + per ≤ P.length
    · rw [min_eq_left h, Nat.add_sub_cancel_left]
    · rw [min_eq_right (by omega)]
      rw [List.take_of_length_le (by simp), List.take_of_length_le (by simp; omega)]

theorem per_covers (n T : Nat) (hT : 0 < T) : n ≤ T * ((n + T - 1) / T) := by
  have h := Nat.div_add_mod (n + T - 1) T
  have h2 := Nat.mod_lt (n + T - 1) hT
  omega

/-- The threads' results are the results of disjoint slices that make up the chunk. -/
theorem threadResults_eq (f : Nat → I → Res O) (chunk : List I) (base T : Nat) (hT : 0 < T) :
    ∃ slices : List (List (I × Nat)), slices.flatten = calls chunk base ∧
      threadResults f chunk base T = slices.map (mapRes fun c => f c.2 c.1) := by
  have hlen : (calls chunk base).length = chunk.length := by simp [calls]
  refine ⟨(List.range T).map fun j => ((calls chunk base).drop
      (j * ((chunk.length + T - 1) / T))).take (min ((j + 1) * ((chunk.length + T - 1) / T))
        (calls chunk base).length - j * ((chunk.length + T - 1) / T)), ?_, ?_⟩
  · rw [slices_flatten]
    apply List.take_of_length_le
    rw [hlen]
    exact per_covers _ _ hT
  · unfold threadResults
    simp only [List.map_map]
    apply List.map_congr_left
    intro j _
    simp only [Function.comp_apply, hlen]
    generalize (chunk.length + T - 1) / T = per
    by_cases h : j * per ≤ chunk.length
    · exact sliceLoop_eq f chunk base _ _ (by omega)
    · have : min ((j + 1) * per) chunk.length - j * per = 0 := by omega
      rw [this]
      simp [sliceLoop, mapRes]

/-! ### Writing the results -/

/-- Files a sharding writer with prefix `p` may touch. -/
def IsShard (p n : Bytes) : Prop := ∃ i, n = shardName p i

/-- The writer's file names are those of the prefix `p`, whatever happened before. -/
structure Named (p : Bytes) (w0 : World) (s : Shard κ) : Prop where
  pre : s.pre = p
  name : s.name = shardName p s.idx
  handle : ∀ n, s.out.handle = some n → IsShard p n
  other : ∀ n, ¬ IsShard p n → s.out.world.files n = w0.files n

theorem Out.open_frame (Ω : Faults) (name : Bytes) (o : Out) (n : Bytes) (h : n ≠ name) :
    (o.open Ω name).2.world.files n = o.world.files n ∧
      ((o.open Ω name).2.handle = o.handle ∨ (o.open Ω name).2.handle = some name) := by
  unfold Out.open
  split
  · exact ⟨rfl, .inl rfl⟩
  · rename_i hh
    split
    · exact ⟨World.set_other _ _ h, .inr rfl⟩
    · exact ⟨rfl, .inl rfl⟩

theorem Out.writeRecord_frame (Ω : Faults) (r : Bytes) (o : Out) :
    (o.writeRecord Ω r).2.handle = o.handle ∧
      ∀ n, o.handle ≠ some n → (o.writeRecord Ω r).2.world.files n = o.world.files n := by
  unfold Out.writeRecord
  split
  · unfold Out.write
    split
    · rename_i hh; exact ⟨rfl, fun _ _ => rfl⟩
    · rename_i name hh
      simp only
      split
      · exact ⟨rfl, fun n hn => World.set_other _ _ (by rintro rfl; exact hn hh)⟩
      · exact ⟨rfl, fun n hn => World.set_other _ _ (by rintro rfl; exact hn hh)⟩
  · exact ⟨rfl, fun _ _ => rfl⟩
  · exact ⟨rfl, fun _ _ => rfl⟩
  · exact ⟨rfl, fun _ _ => rfl⟩

theorem writeLoop_frame (Ω : Faults) : ∀ (rs : List Bytes) (o : Out),
    (Shard.writeLoop Ω rs o).2.handle = o.handle ∧
      ∀ n, o.handle ≠ some n → (Shard.writeLoop Ω rs o).2.world.files n = o.world.files n := by
  intro rs
  induction rs with
  | nil => intro o; exact ⟨rfl, fun _ _ => rfl⟩
  | cons r rs ih =>
    intro o
    obtain ⟨h1, h2⟩ := Out.writeRecord_frame Ω r o
    rw [Shard.writeLoop]
    cases hw : o.writeRecord Ω r with
    | mk st o1 =>
      rw [hw] at h1 h2
      obtain ⟨g1, g2⟩ := ih o1
      simp only at h1 h2
      cases st with
      | ok u =>
        exact ⟨g1.trans h1, fun n hn => (g2 n (by rw [h1]; exact hn)).trans (h2 n hn)⟩
      | err e => exact ⟨h1, h2⟩
      | crash => exact ⟨h1, h2⟩
      | ub => exact ⟨h1, h2⟩

theorem Out.close_frame (Ω : Faults) (o : Out) :
    ((o.close Ω).2.handle = o.handle ∨ (o.close Ω).2.handle = none) ∧
      ∀ n, o.handle ≠ some n → (o.close Ω).2.world.files n = o.world.files n := by
  unfold Out.close
  split
  · exact ⟨.inl rfl, fun _ _ => rfl⟩
  · rename_i name hh
    simp only
    split
    · exact ⟨.inr rfl, fun _ _ => rfl⟩
    · exact ⟨.inl rfl, fun n hn => World.set_other _ _ (by rintro rfl; exact hn hh)⟩

theorem Named.flush {p : Bytes} {w0 : World} {s : Shard κ} (h : Named p w0 s) (Ω : Faults) :
    Named p w0 (s.flush Ω).2 := by
  unfold Shard.flush
  split
  · exact h
  · split
    · exact h
    · have hshard : IsShard p s.name := ⟨s.idx, h.name⟩
      have h1 : ∀ n, ¬ IsShard p n → (s.out.open Ω s.name).2.world.files n = w0.files n := by
        intro n hn
        rw [(Out.open_frame Ω s.name s.out n (by rintro rfl; exact hn hshard)).1, h.other n hn]
      have h2 : ∀ n, (s.out.open Ω s.name).2.handle = some n → IsShard p n := by
        intro n hn
        by_cases he : n = s.name
        · rw [he]; exact hshard
        · rcases (Out.open_frame Ω s.name s.out n he).2 with h3 | h3
          · rw [h3] at hn; exact h.handle n hn
          · rw [h3] at hn; cases hn; exact absurd rfl he
      cases ho : s.out.open Ω s.name with
      | mk st o1 =>
        rw [ho] at h1 h2
        simp only at h1 h2
        cases st with
        | ok u =>
          simp only
          obtain ⟨g1, g2⟩ := writeLoop_frame Ω s.sorted o1
          cases hw : Shard.writeLoop Ω s.sorted o1 with
          | mk st o2 =>
            rw [hw] at g1 g2
            simp only at g1 g2
            have h3 : ∀ n, o2.handle = some n → IsShard p n := fun n hn => h2 n (by rw [← g1]; exact hn)
            have h4 : ∀ n, ¬ IsShard p n → o2.world.files n = w0.files n := fun n hn => by
              rw [g2 n (fun e => hn (h2 n e)), h1 n hn]
            cases st with
            | ok written =>
              simp only
              obtain ⟨k1, k2⟩ := Out.close_frame Ω o2
              refine ⟨h.pre, by rw [h.pre], ?_, ?_⟩
              · intro n hn
                simp only at hn
                rcases k1 with k1 | k1
                · rw [k1] at hn; exact h3 n hn
                · rw [k1] at hn; cases hn
              · intro n hn
                simp only
                rw [k2 n (fun e => hn (h3 n e)), h4 n hn]
            | err e => exact ⟨h.pre, h.name, h3, h4⟩
            | crash => exact ⟨h.pre, h.name, h3, h4⟩
            | ub => exact ⟨h.pre, h.name, h3, h4⟩
        | err e => exact ⟨h.pre, h.name, h2, h1⟩
        | crash => exact ⟨h.pre, h.name, h2, h1⟩
        | ub => exact ⟨h.pre, h.name, h2, h1⟩

theorem Named.write {p : Bytes} {w0 : World} {s : Shard κ} (h : Named p w0 s) (Ω : Faults)
    (r : Bytes) : Named p w0 (s.write Ω r).2 := by
  unfold Shard.write
  split
  · exact h
  · split
    · exact h
    · by_cases hb : s.bytes > s.maxBytes
      · simp only [hb, if_true]
        have hf := h.flush Ω
        cases hx : s.flush Ω with
        | mk st s1 =>
          rw [hx] at hf
          cases st with
          | ok u => exact ⟨hf.pre, hf.name, hf.handle, hf.other⟩
          | err e => exact hf
          | crash => exact hf
          | ub => exact hf
      · simp only [hb, if_false]
        exact ⟨h.pre, h.name, h.handle, h.other⟩

theorem Named.writeOutputs {p : Bytes} {w0 : World} (Ω : Faults) (ser : O → Bytes) :
    ∀ (ys : List O) (s : Shard κ), Named p w0 s → Named p w0 (writeOutputs Ω ser ys s).2 := by
  intro ys
  induction ys with
  | nil => intro s h; exact h
  | cons y ys ih =>
    intro s h
    have hw := h.write Ω (ser y)
    rw [Rec.writeOutputs]
    cases hx : s.write Ω (ser y) with
    | mk st s1 =>
      rw [hx] at hw
      cases st with
      | ok u => exact ih s1 hw
      | err e => exact hw
      | crash => exact hw
      | ub => exact hw

theorem Named.writeResults {p : Bytes} {w0 : World} (Ω : Faults) (ser : O → Bytes) :
    ∀ (rs : List (Res (List O))) (s : Shard κ), Named p w0 s →
      Named p w0 (writeResults Ω ser rs s).2 := by
  intro rs
  induction rs with
  | nil => intro s h; exact h
  | cons r rs ih =>
    intro s h
    cases r with
    | ok ys =>
      have hw := Named.writeOutputs Ω ser ys s h
      rw [Rec.writeResults]
      cases hx : Rec.writeOutputs Ω ser ys s with
      | mk st s1 =>
        rw [hx] at hw
        cases st with
        | ok u => exact ih s1 hw
        | err e => exact hw
        | crash => exact hw
        | ub => exact hw
    | err e => exact h
    | crash => exact h
    | ub => exact h

theorem Named.setPrefix {p : Bytes} {w0 : World} {s : Shard κ} (h : Named p w0 s) :
    Named p w0 (s.setPrefix p) := ⟨rfl, rfl, h.handle, h.other⟩

theorem Named.processLoop {p : Bytes} {w0 : World} (Ω : Faults) (junk : Nat) (parse : Bytes → I)
    (f : Nat → I → Res O) (ser : O → Bytes) (T cs : Nat) :
    ∀ (fuel base : Nat) (st : Stream) (s : Shard κ), Named p w0 s →
      Named p w0 (processLoop Ω junk parse f ser T cs p fuel base st s).2 := by
  intro fuel
  induction fuel with
  | zero => intro base st s h; exact h
  | succ fuel ih =>
    intro base st s h
    rw [Rec.processLoop]
    cases hc : readChunk junk parse cs st with
    | mk r st1 =>
      cases r with
      | ok x =>
        obtain ⟨chunk, more⟩ := x
        simp only
        split
        · exact h
        · have hw := Named.writeResults Ω ser (threadResults f chunk base T) _ h.setPrefix
          cases hx : Rec.writeResults Ω ser (threadResults f chunk base T) (s.setPrefix p) with
          | mk r s1 =>
            rw [hx] at hw
            cases r with
            | ok u =>
              simp only
              split
              · exact ih _ _ _ hw
              · exact hw
            | err e => exact hw
            | crash => exact hw
            | ub => exact hw
      | err e => exact h
      | crash => exact h
      | ub => exact h

theorem Named.closeFiles {p : Bytes} {w0 : World} {s : Shard κ} (h : Named p w0 s) (Ω : Faults)
    (n : Bytes) (hn : ¬ IsShard p n) : (s.close Ω).2.out.world.files n = w0.files n := by
  unfold Shard.close Shard.tryClose
  simp only
  split
  · exact h.other n hn
  · have hf := h.flush Ω
    cases hx : s.flush Ω with
    | mk r s1 =>
      rw [hx] at hf
      cases r <;> exact hf.other n hn

/-! ### Successful runs -/

theorem ShardInv.setPrefix {key : Bytes → κ} {p : Bytes} {w0 : World} {rs : List Bytes}
    {groups : List (List Bytes)} {s : Shard κ} (h : ShardInv key p w0 rs groups s) :
    ShardInv key p w0 rs groups (s.setPrefix p) :=
  ⟨h.keyEq, rfl, h.healthy, rfl, rfl, h.handle, h.idx, h.shards, h.files, h.sorted, h.nonempty,
    h.short, h.perm, h.other⟩

theorem ShardInv.writeOutputs {key : Bytes → κ} {p : Bytes} {w0 : World} {Ω : Faults}
    (ser : O → Bytes) : ∀ (ys : List O) (s s' : Shard κ) (done : List Bytes)
      (groups : List (List Bytes)) (u : Unit), ShardInv key p w0 done groups s →
      writeOutputs Ω ser ys s = (.ok u, s') →
      ∃ groups', ShardInv key p w0 (done ++ ys.map ser) groups' s' := by
  intro ys
  induction ys with
  | nil =>
    intro s s' done groups u hi h
    simp only [Rec.writeOutputs, Prod.mk.injEq] at h
    obtain ⟨-, rfl⟩ := h
    exact ⟨groups, by simpa using hi⟩
  | cons y ys ih =>
    intro s s' done groups u hi h
    rw [Rec.writeOutputs] at h
    cases hx : s.write Ω (ser y) with
    | mk st s1 =>
      rw [hx] at h
      cases st with
      | ok v =>
        obtain ⟨g, hg⟩ := hi.write hx
        obtain ⟨g', hg'⟩ := ih _ _ _ _ _ hg h
        exact ⟨g', by simpa using hg'⟩
      | err e => simp at h
      | crash => simp at h
      | ub => simp at h

theorem ShardInv.writeResults {α : Type} {key : Bytes → κ} {p : Bytes} {w0 : World} {Ω : Faults}
    (ser : O → Bytes) (g : α → Res O) : ∀ (slices : List (List α)) (s s' : Shard κ)
      (done : List Bytes) (groups : List (List Bytes)) (u : Unit),
      ShardInv key p w0 done groups s →
      writeResults Ω ser (slices.map (mapRes g)) s = (.ok u, s') →
      ∃ ys groups', mapRes g slices.flatten = .ok ys ∧
        ShardInv key p w0 (done ++ ys.map ser) groups' s' := by
  intro slices
  induction slices with
  | nil =>
    intro s s' done groups u hi h
    simp only [List.map_nil, Rec.writeResults, Prod.mk.injEq] at h
    obtain ⟨-, rfl⟩ := h
    exact ⟨[], groups, rfl, by simpa using hi⟩
  | cons sl slices ih =>
    intro s s' done groups u hi h
    rw [List.map_cons] at h
    cases hm : mapRes g sl with
    | ok ys =>
      rw [hm, Rec.writeResults] at h
      cases hx : Rec.writeOutputs Ω ser ys s with
      | mk st s1 =>
        rw [hx] at h
        cases st with
        | ok v =>
          obtain ⟨g1, hg1⟩ := ShardInv.writeOutputs ser ys _ _ _ _ _ hi hx
          obtain ⟨zs, g2, h1, h2⟩ := ih _ _ _ _ _ hg1 h
          refine ⟨ys ++ zs, g2, ?_, by simpa using h2⟩
          rw [List.flatten_cons, mapRes_append, hm, Res.ok_bind, h1, Res.ok_bind]
        | err e => simp at h
        | crash => simp at h
        | ub => simp at h
    | err e => rw [hm] at h; simp [Rec.writeResults] at h
    | crash => rw [hm] at h; simp [Rec.writeResults] at h
    | ub => rw [hm] at h; simp [Rec.writeResults] at h

/-- Reading one chunk. -/
theorem readChunk_ok (junk : Nat) (parse : Bytes → I) : ∀ (cs : Nat) (rs : List Bytes),
    0 < cs → rs ≠ [] → (∀ r ∈ rs, r.length < 2 ^ 31) →
    ∃ eof, readChunk junk parse cs ⟨fileBytes rs, false⟩ =
        (.ok ((rs.take cs).map parse, decide (rs.drop cs ≠ [])), ⟨fileBytes (rs.drop cs), eof⟩) ∧
      (rs.drop cs ≠ [] → eof = false) := by
  intro cs
  induction cs with
  | zero => intro rs h; omega
  | succ cs ih =>
    intro rs _ hne hlen
    match rs, hne with
    | r :: rs, _ =>
      rw [readChunk, fileBytes_cons, readRecord_ok junk (hlen r (by simp))]
      simp only
      by_cases hrs : rs = []
      · subst hrs
        refine ⟨true, ?_, by simp⟩
        simp [fileBytes_nil, Stream.hasMore_nil]
      · have hfb : fileBytes rs ≠ [] := by
          match rs, hrs with
          | d :: t, _ => exact fileBytes_ne_nil
        rw [Stream.hasMore_ne hfb]
        simp only
        by_cases hcs : cs = 0
        · subst hcs
          exact ⟨false, by simp [readChunk, hrs], fun _ => rfl⟩
        · obtain ⟨eof, h1, h2⟩ := ih rs (by omega) hrs
            (fun r hr => hlen r (List.mem_cons_of_mem _ hr))
          refine ⟨eof, ?_, by simpa using h2⟩
          rw [h1]
          simp

/-- The calls on all records of the input, with their numbers. -/
def allCalls (parse : Bytes → I) (recs : List Bytes) (base : Nat) : List (I × Nat) :=
  (recs.map parse).zipIdx base

theorem calls_take_drop (parse : Bytes → I) (recs : List Bytes) (base cs : Nat) :
    calls ((recs.take cs).map parse) base ++
      allCalls parse (recs.drop cs) (base + ((recs.take cs).map parse).length) =
    allCalls parse recs base := by
  unfold calls allCalls
  rw [← List.zipIdx_append, ← List.map_append, List.take_append_drop]

theorem processLoop_ok {key : Bytes → κ} {p : Bytes} {w0 : World} {Ω : Faults} {junk : Nat}
    {parse : Bytes → I} {f : Nat → I → Res O} {ser : O → Bytes} {T cs : Nat} (hcs : 0 < cs) :
    ∀ (fuel base : Nat) (recs : List Bytes) (s s' : Shard κ) (done : List Bytes)
      (groups : List (List Bytes)) (u : Unit), recs ≠ [] → (∀ r ∈ recs, r.length < 2 ^ 31) →
      ShardInv key p w0 done groups s →
      processLoop Ω junk parse f ser T cs p fuel base ⟨fileBytes recs, false⟩ s = (.ok u, s') →
      ∃ ys groups', mapRes (fun c => f c.2 c.1) (allCalls parse recs base) = .ok ys ∧
        ShardInv key p w0 (done ++ ys.map ser) groups' s' := by
  intro fuel
  induction fuel with
  | zero => intro base recs s s' done groups u _ _ _ h; simp [processLoop] at h
  | succ fuel ih =>
    intro base recs s s' done groups u hne hlen hi h
    obtain ⟨eof, h1, h2⟩ := readChunk_ok junk parse cs recs hcs hne hlen
    rw [processLoop, h1] at h
    simp only at h
    by_cases hT : T = 0
    · simp [hT] at h
    · simp only [hT, if_false] at h
      obtain ⟨slices, e1, e2⟩ := threadResults_eq f ((recs.take cs).map parse) base T (by omega)
      rw [e2] at h
      cases hx : writeResults Ω ser (slices.map (mapRes fun c => f c.2 c.1)) (s.setPrefix p) with
      | mk st s1 =>
        rw [hx] at h
        cases st with
        | err e => simp at h
        | crash => simp at h
        | ub => simp at h
        | ok v =>
          obtain ⟨ys, g1, k1, k2⟩ := ShardInv.writeResults ser _ slices _ _ _ _ _ hi.setPrefix hx
          rw [e1] at k1
          simp only at h
          by_cases hmore : recs.drop cs ≠ []
          · simp only [hmore, ne_eq, not_false_eq_true, decide_true, if_true] at h
            rw [h2 hmore] at h
            obtain ⟨zs, g2, m1, m2⟩ := ih _ _ _ _ _ _ _ hmore
              (fun r hr => hlen r (List.mem_of_mem_drop hr)) k2 h
            refine ⟨ys ++ zs, g2, ?_, by simpa using m2⟩
            rw [← calls_take_drop parse recs base cs, mapRes_append, k1, Res.ok_bind, m1, Res.ok_bind]
          · simp only [hmore, decide_false, Bool.false_eq_true, if_false, Prod.mk.injEq] at h
            obtain ⟨-, rfl⟩ := h
            refine ⟨ys, g1, ?_, k2⟩
            rw [← calls_take_drop parse recs base cs, mapRes_append, k1, Res.ok_bind]
            push Not at hmore
            simp [allCalls, hmore, mapRes]

/-! ### C47 -/

/-- `outs` are the images of the records `recs`: the `k`-th is the serialized result of the
call on the `k`-th record. -/
def Images (parse : Bytes → I) (f : Nat → I → Res O) (ser : O → Bytes) (recs outs : List Bytes) :
    Prop :=
  outs.length = recs.length ∧ ∀ k r, recs[k]? = some r →
    ∃ y, f k (parse r) = .ok y ∧ outs[k]? = some (ser y)

theorem images_of_mapRes {parse : Bytes → I} {f : Nat → I → Res O} (ser : O → Bytes) :
    ∀ {recs : List Bytes} {base : Nat} {ys : List O},
    mapRes (fun c => f c.2 c.1) (allCalls parse recs base) = .ok ys →
    ys.length = recs.length ∧ ∀ k r, recs[k]? = some r →
      ∃ y, f (base + k) (parse r) = .ok y ∧ (ys.map ser)[k]? = some (ser y) := by
  intro recs
  induction recs with
  | nil =>
    intro base ys h
    simp only [allCalls, List.map_nil, List.zipIdx_nil, mapRes, Res.ok.injEq] at h
    subst h
    simp
  | cons r recs ih =>
    intro base ys h
    rw [mapRes_ok] at h
    simp only [allCalls, List.map_cons, List.zipIdx_cons] at h
    cases h with
    | cons h1 h2 =>
      rename_i y ys
      obtain ⟨i1, i2⟩ := ih (mapRes_ok.2 h2)
      refine ⟨by simp [i1], ?_⟩
      intro k x hk
      cases k with
      | zero =>
        simp at hk
        subst hk
        exact ⟨y, h1, by simp⟩
      | succ k =>
        simp only [List.getElem?_cons_succ] at hk
        obtain ⟨z, hz, hz'⟩ := i2 k x hk
        refine ⟨z, ?_, by simpa using hz'⟩
        rw [← hz]
        congr 1
        omega

/-- The part of a successful run up to closing the writer. -/
theorem process_ok {key : Bytes → κ} {Ω : Faults} {junk : Nat} {pick : Pick κ} (hp : pick.Min)
    {maxBytes : Int} {parse : Bytes → I} {f : Nat → I → Res O} {ser : O → Bytes} {T cs : Nat}
    (hcs : 0 < cs) {input output : Bytes} {w w' : World} {recs : List Bytes}
    (hlen : ∀ r ∈ recs, r.length < 2 ^ 31) (hin : w.files input = some (fileBytes recs)) {u : Unit}
    (h : processRecordFile Ω junk pick key maxBytes parse f ser T cs input output w = (.ok u, w')) :
    ∃ ys out, mapRes (fun c => f c.2 c.1) (allCalls parse recs 0) = .ok ys ∧
      w'.files output = some (fileBytes out) ∧ (∀ r ∈ out, r.length < 2 ^ 31) ∧
      SortedBy key out ∧ out.Perm (ys.map ser) ∧
      (∀ n, n ≠ output → ¬ IsShard output n → w'.files n = w.files n) ∧
      ∃ k, (∀ i, i < k → w'.files (shardName output i) = none) ∧
        ∀ i, k ≤ i → w'.files (shardName output i) = w.files (shardName output i) := by
  unfold processRecordFile at h
  rw [openRead, hin] at h
  simp only at h
  have hi0 : ShardInv key output w [] [] ((Shard.init key maxBytes w).setPrefix output) :=
    ShardInv.start key output (Shard.init key maxBytes w) rfl rfl rfl rfl rfl rfl
  -- the loop
  have hloop : ∃ wr ys groups, mapRes (fun c => f c.2 c.1) (allCalls parse recs 0) = .ok ys ∧
      ShardInv key output w (ys.map ser) groups wr ∧
      (match wr.close Ω with
        | (.ok shards, wr) =>
          match shardMerge Ω junk pick key shards output wr.out.world with
          | (.ok _, w) => deleteAll Ω shards w
          | x => x
        | (.err e, wr) => (.err e, wr.out.world)
        | (.crash, wr) => (.crash, wr.out.world)
        | (.ub, wr) => (.ub, wr.out.world)) = (.ok u, w') := by
    by_cases hr : recs = []
    · subst hr
      rw [fileBytes_nil, Stream.hasMore_nil] at h
      simp only [Bool.false_eq_true, if_false] at h
      exact ⟨_, [], [], rfl, by simpa using hi0, h⟩
    · have hfb : fileBytes recs ≠ [] := by
        match recs, hr with
        | d :: t, _ => exact fileBytes_ne_nil
      rw [Stream.hasMore_ne hfb] at h
      simp only [if_true] at h
      cases hx : processLoop Ω junk parse f ser T cs output ((fileBytes recs).length + 1) 0
          ⟨fileBytes recs, false⟩ ((Shard.init key maxBytes w).setPrefix output) with
      | mk st wr =>
        rw [hx] at h
        cases st with
        | err e => simp at h
        | crash => simp at h
        | ub => simp at h
        | ok v =>
          obtain ⟨ys, g, k1, k2⟩ := processLoop_ok hcs _ _ _ _ _ _ _ _ hr hlen hi0 hx
          exact ⟨wr, ys, g, k1, by simpa using k2, h⟩
  obtain ⟨wr, ys, groups, hys, hinv, h⟩ := hloop
  cases hc : wr.close Ω with
  | mk st wr2 =>
    rw [hc] at h
    cases st with
    | err e => simp at h
    | crash => simp at h
    | ub => simp at h
    | ok shards =>
      simp only at h
      obtain ⟨g, e1, e2, e3, e4, e5, e6, e7, e8⟩ := hinv.close hc
      have hfa : List.Forall₂ (fun n rs => wr2.out.world.files n = some (fileBytes rs)) shards g := by
        rw [e1, List.forall₂_iff_get]
        refine ⟨by simp, ?_⟩
        intro i h1 h2
        simp only [List.get_eq_getElem, List.getElem_map, List.getElem_range]
        exact e2 i _ (List.getElem?_eq_getElem h2)
      cases hm : shardMerge Ω junk pick key shards output wr2.out.world with
      | mk st w2 =>
        rw [hm] at h
        cases st with
        | err e => simp at h
        | crash => simp at h
        | ub => simp at h
        | ok v =>
          simp only at h
          obtain ⟨out, m1, m2, m3, m4⟩ := shardMerge_ok hp hfa e5 e3 hm
          obtain ⟨d1, d2⟩ := deleteAll_ok _ _ _ _ h
          have hmem : ∀ n, n ∈ shards ↔ ∃ i, i < g.length ∧ n = shardName output i := by
            intro n
            rw [e1]
            simp only [List.mem_map, List.mem_range]
            constructor
            · rintro ⟨i, hi, rfl⟩; exact ⟨i, hi, rfl⟩
            · rintro ⟨i, hi, rfl⟩; exact ⟨i, hi, rfl⟩
          have hout : output ∉ shards := by
            rw [hmem]
            rintro ⟨i, -, e⟩
            exact shardName_ne output i e.symm
          refine ⟨ys, out, hys, ?_, ?_, m2, m3.trans e6, ?_, g.length, ?_, ?_⟩
          · rw [d2 _ hout, m1]
          · intro r hr
            obtain ⟨R, hR, hrR⟩ := List.mem_flatten.1 (m3.mem_iff.1 hr)
            exact e5 R hR r hrR
          · intro n hn hns
            have hnm : n ∉ shards := by
              rw [hmem]
              rintro ⟨i, -, e⟩
              exact hns ⟨i, e⟩
            rw [d2 n hnm, m4 n hn]
            exact e7 n (fun i _ e => hns ⟨i, e⟩)
          · intro i hi
            exact d1 _ ((hmem _).2 ⟨i, hi, rfl⟩)
          · intro i hi
            have hnm : shardName output i ∉ shards := by
              rw [hmem]
              rintro ⟨j, hj, e⟩
              have := shardName_inj e
              omega
            rw [d2 _ hnm, m4 _ (shardName_ne output i)]
            apply e7
            intro j hj e
            have := shardName_inj e
            omega

/-- **C47**.  If `ProcessRecordFile` succeeds on a file holding `recs`, the transformation was
applied to each record once and succeeded, and the output file holds exactly the serialized
results, in key order.  Of the other files only shard files `output0, output1, ...` are
affected: the ones that were used are gone.  This is for every number of threads, chunk size of
at least 1, shard size limit, choice among equal keys, and pattern of I/O faults. -/
theorem C47_processed (key : Bytes → κ) (Ω : Faults) (junk : Nat) (pick : Pick κ) (hp : pick.Min)
    (maxBytes : Int) (parse : Bytes → I) (f : Nat → I → Res O) (ser : O → Bytes) (T cs : Nat)
    (hcs : 1 ≤ cs) (input output : Bytes) (_ : ∀ i, input ≠ shardName output i) (w w' : World)
    (recs : List Bytes)
    (hlen : ∀ r ∈ recs, r.length < 2 ^ 31) (hin : w.files input = fileOf recs)
    (h : processRecordFile Ω junk pick key maxBytes parse f ser T cs input output w = (.ok (), w')) :
    ∃ outs sorted, Images parse f ser recs outs ∧ sorted.Perm outs ∧ SortedBy key sorted ∧
      w'.files output = fileOf sorted ∧
      (∀ n, n ≠ output → (∀ i, n ≠ shardName output i) → w'.files n = w.files n) ∧
      ∃ k, (∀ i, i < k → w'.files (shardName output i) = none) ∧
        ∀ i, k ≤ i → w'.files (shardName output i) = w.files (shardName output i) := by
  rw [fileOf_eq hlen] at hin
  obtain ⟨ys, out, h1, h2, h3, h4, h5, h6, h7⟩ := process_ok hp (by omega) hlen hin h
  obtain ⟨i1, i2⟩ := images_of_mapRes ser h1
  refine ⟨ys.map ser, out, ⟨by simpa using i1, ?_⟩, h5, h4, ?_, ?_, h7⟩
  · intro k r hk
    obtain ⟨y, hy, hy'⟩ := i2 k r hk
    exact ⟨y, by simpa using hy, hy'⟩
  · rw [fileOf_eq h3, h2]
  · intro n hn hns
    exact h6 n hn (by rintro ⟨i, e⟩; exact hns i e)

/-! ### Runs without I/O faults -/

theorem writeOutputs_none {key : Bytes → κ} {p : Bytes} {w0 : World} (ser : O → Bytes) :
    ∀ (ys : List O) (s : Shard κ) (done : List Bytes) (groups : List (List Bytes)),
    ShardInv key p w0 done groups s → (∀ r ∈ done ++ ys.map ser, r.length < 2 ^ 31) →
    (writeOutputs .none ser ys s).1 = .ok () := by
  intro ys
  induction ys with
  | nil => intro s done groups _ _; rfl
  | cons y ys ih =>
    intro s done groups hi hlen
    have h1 := writes_none [ser y] s done groups hi (by
      intro r hr
      apply hlen
      simp only [List.mem_append, List.mem_singleton, List.map_cons, List.mem_cons] at hr ⊢
      rcases hr with hr | hr
      · exact .inl hr
      · exact .inr (.inl (by simpa using hr))) (s.write .none (ser y)).1 (by simp [Shard.writes])
    rw [writeOutputs, eq_pair h1]
    obtain ⟨g, hg⟩ := hi.write (eq_pair h1)
    exact ih _ _ _ hg (by simpa using hlen)

theorem writeResults_none {α : Type} {key : Bytes → κ} {p : Bytes} {w0 : World} (ser : O → Bytes)
    (g : α → Res O) : ∀ (slices : List (List α)) (ys : List O) (s : Shard κ) (done : List Bytes)
    (groups : List (List Bytes)), ShardInv key p w0 done groups s →
    mapRes g slices.flatten = .ok ys → (∀ r ∈ done ++ ys.map ser, r.length < 2 ^ 31) →
    (writeResults .none ser (slices.map (mapRes g)) s).1 = .ok () := by
  intro slices
  induction slices with
  | nil => intro ys s done groups _ _ _; rfl
  | cons sl slices ih =>
    intro ys s done groups hi hy hlen
    rw [List.flatten_cons, mapRes_append] at hy
    rw [Res.bind_eq_ok] at hy
    obtain ⟨as, ha, hy⟩ := hy
    rw [Res.bind_eq_ok] at hy
    obtain ⟨bs, hb, hy⟩ := hy
    cases hy
    have h1 := writeOutputs_none ser as s done groups hi (by
      intro r hr; apply hlen; simp only [List.map_append, List.mem_append] at hr ⊢; tauto)
    rw [List.map_cons, ha, writeResults, eq_pair h1]
    obtain ⟨g1, hg1⟩ := ShardInv.writeOutputs ser as _ _ _ _ _ hi (eq_pair h1)
    exact ih bs _ _ _ hg1 hb (by simpa using hlen)

theorem processLoop_none {key : Bytes → κ} {p : Bytes} {w0 : World} {junk : Nat}
    {parse : Bytes → I} {f : Nat → I → Res O} {ser : O → Bytes} {T cs : Nat} (hcs : 0 < cs)
    (hT : 0 < T) : ∀ (fuel base : Nat) (recs : List Bytes) (s : Shard κ) (done : List Bytes)
      (groups : List (List Bytes)) (ys : List O), recs ≠ [] → (∀ r ∈ recs, r.length < 2 ^ 31) →
      ShardInv key p w0 done groups s → recs.length < fuel →
      mapRes (fun c => f c.2 c.1) (allCalls parse recs base) = .ok ys →
      (∀ r ∈ done ++ ys.map ser, r.length < 2 ^ 31) →
      (processLoop .none junk parse f ser T cs p fuel base ⟨fileBytes recs, false⟩ s).1 = .ok () := by
  intro fuel
  induction fuel with
  | zero => intro base recs s done groups ys _ _ _ h; omega
  | succ fuel ih =>
    intro base recs s done groups ys hne hlen hi hf hy hsh
    obtain ⟨eof, h1, h2⟩ := readChunk_ok junk parse cs recs hcs hne hlen
    rw [processLoop, h1]
    have hT' : T ≠ 0 := by omega
    simp only [hT', if_false]
    obtain ⟨slices, e1, e2⟩ := threadResults_eq f ((recs.take cs).map parse) base T hT
    rw [e2]
    rw [← calls_take_drop parse recs base cs, mapRes_append] at hy
    rw [Res.bind_eq_ok] at hy
    obtain ⟨as, ha, hy⟩ := hy
    rw [Res.bind_eq_ok] at hy
    obtain ⟨bs, hb, hy⟩ := hy
    cases hy
    rw [← e1] at ha
    have h3 := writeResults_none ser (fun c => f c.2 c.1) slices as (s.setPrefix p) done groups
      hi.setPrefix ha (by
        intro r hr; apply hsh; simp only [List.map_append, List.mem_append] at hr ⊢; tauto)
    rw [eq_pair h3]
    simp only
    by_cases hmore : recs.drop cs ≠ []
    · simp only [hmore, ne_eq, not_false_eq_true, decide_true, if_true]
      rw [h2 hmore]
      obtain ⟨ys', g1, k1, k2⟩ := ShardInv.writeResults ser _ slices _ _ _ _ _ hi.setPrefix (eq_pair h3)
      rw [ha] at k1
      cases k1
      refine ih _ _ _ _ _ bs hmore (fun r hr => hlen r (List.mem_of_mem_drop hr)) k2 ?_ hb
        (by simpa using hsh)
      have : 0 < recs.length := List.length_pos_of_ne_nil hne
      simp only [List.length_drop]
      omega
    · simp [hmore]

/-- **C47**: without I/O faults, with at least one thread and chunks of at least one record,
the call succeeds if the transformation succeeds on every record. -/
theorem C47_no_faults (key : Bytes → κ) (junk : Nat) (pick : Pick κ) (hp : pick.Min)
    (maxBytes : Int) (parse : Bytes → I) (f : Nat → I → Res O) (ser : O → Bytes) (T cs : Nat)
    (hT : 1 ≤ T) (hcs : 1 ≤ cs) (input output : Bytes) (_ : ∀ i, input ≠ shardName output i)
    (w : World) (recs : List Bytes)
    (hlen : ∀ r ∈ recs, r.length < 2 ^ 31) (hin : w.files input = fileOf recs)
    (hf : ∀ k r, recs[k]? = some r → ∃ y, f k (parse r) = .ok y ∧ (ser y).length < 2 ^ 31) :
    (processRecordFile .none junk pick key maxBytes parse f ser T cs input output w).1 = .ok () := by
  rw [fileOf_eq hlen] at hin
  have hys : ∀ (recs : List Bytes) (base : Nat),
      (∀ k r, recs[k]? = some r → ∃ y, f (base + k) (parse r) = .ok y ∧ (ser y).length < 2 ^ 31) →
      ∃ ys, mapRes (fun c => f c.2 c.1) (allCalls parse recs base) = .ok ys ∧
        ∀ r ∈ ys.map ser, r.length < 2 ^ 31 := by
    intro recs
    induction recs with
    | nil => intro base _; exact ⟨[], rfl, by simp⟩
    | cons r recs ih =>
      intro base h
      obtain ⟨y, hy, hl⟩ := h 0 r (by simp)
      obtain ⟨ys, h1, h2⟩ := ih (base + 1) (by
        intro k x hk
        obtain ⟨z, hz, hz'⟩ := h (k + 1) x (by simpa using hk)
        exact ⟨z, by rw [← hz]; congr 1; omega, hz'⟩)
      refine ⟨y :: ys, ?_, ?_⟩
      · simp only [allCalls, List.map_cons, List.zipIdx_cons, mapRes]
        rw [Nat.add_zero] at hy
        rw [hy, Res.ok_bind]
        unfold allCalls at h1
        rw [h1, Res.ok_bind]
      · intro x hx
        rw [List.map_cons] at hx
        rcases List.mem_cons.1 hx with rfl | hx
        · exact hl
        · exact h2 x hx
  obtain ⟨ys, hy, hyl⟩ := hys recs 0 (by simpa using hf)
  have hi0 : ShardInv key output w [] [] ((Shard.init key maxBytes w).setPrefix output) :=
    ShardInv.start key output (Shard.init key maxBytes w) rfl rfl rfl rfl rfl rfl
  -- what remains after the loop
  have hrest : ∀ (wr : Shard κ) (groups : List (List Bytes)),
      ShardInv key output w (ys.map ser) groups wr →
      (match wr.close .none with
        | (.ok shards, wr) =>
          match shardMerge .none junk pick key shards output wr.out.world with
          | (.ok _, w) => deleteAll .none shards w
          | x => x
        | (.err e, wr) => (.err e, wr.out.world)
        | (.crash, wr) => (.crash, wr.out.world)
        | (.ub, wr) => (.ub, wr.out.world)).1 = .ok () := by
    intro wr groups hinv
    obtain ⟨shards, hc⟩ := close_none hinv hyl
    obtain ⟨g, e1, e2, e3, e4, e5, e6, e7, e8⟩ := hinv.close (eq_pair hc)
    have hfa : List.Forall₂ (fun n rs => (wr.close .none).2.out.world.files n = some (fileBytes rs))
        shards g := by
      rw [e1, List.forall₂_iff_get]
      refine ⟨by simp, ?_⟩
      intro i h1 h2
      simp only [List.get_eq_getElem, List.getElem_map, List.getElem_range]
      exact e2 i _ (List.getElem?_eq_getElem h2)
    have hm := shardMerge_none (junk := junk) hp (output := output) hfa e5 e3
    obtain ⟨out, m1, m2, m3, m4⟩ := shardMerge_ok hp hfa e5 e3 (eq_pair hm)
    rw [eq_pair hc]
    simp only
    rw [eq_pair hm]
    simp only
    apply deleteAll_none
    · rw [e1]
      exact (List.nodup_range).map (fun i j h => shardName_inj h)
    · intro n hn
      rw [e1] at hn
      obtain ⟨i, hi, rfl⟩ := List.mem_map.1 hn
      rw [m4 _ (shardName_ne output i)]
      rw [e2 i _ (List.getElem?_eq_getElem (by simpa using hi))]
      rfl
  unfold processRecordFile
  rw [openRead, hin]
  simp only
  by_cases hr : recs = []
  · subst hr
    simp only [allCalls, List.map_nil, List.zipIdx_nil, mapRes, Res.ok.injEq] at hy
    subst hy
    rw [fileBytes_nil, Stream.hasMore_nil]
    simp only [Bool.false_eq_true, if_false]
    exact hrest _ [] (by simpa using hi0)
  · have hfb : fileBytes recs ≠ [] := by
      match recs, hr with
      | d :: t, _ => exact fileBytes_ne_nil
    rw [Stream.hasMore_ne hfb]
    simp only [if_true]
    have hl := processLoop_none (junk := junk) (by omega : 0 < cs) (by omega : 0 < T)
      ((fileBytes recs).length + 1) 0 recs _ [] [] ys hr hlen hi0
      (Nat.lt_succ_of_le (fileBytes_length recs)) hy (by simpa using hyl)
    obtain ⟨ys', g, k1, k2⟩ := processLoop_ok (by omega) _ _ _ _ _ _ _ _ hr hlen hi0 (eq_pair hl)
    rw [hy] at k1
    cases k1
    rw [eq_pair hl]
    simp only
    exact hrest _ g (by simpa using k2)

/-- **C47**, failures: if the transformation fails on some record, the call does not succeed
and the output file is as it was before, whatever else happens. -/
theorem C47_failed_transform (key : Bytes → κ) (Ω : Faults) (junk : Nat) (pick : Pick κ)
    (hp : pick.Min) (maxBytes : Int) (parse : Bytes → I) (f : Nat → I → Res O) (ser : O → Bytes)
    (T cs : Nat) (hcs : 1 ≤ cs) (input output : Bytes) (hne' : ∀ i, input ≠ shardName output i)
    (w : World) (recs : List Bytes)
    (hlen : ∀ r ∈ recs, r.length < 2 ^ 31) (hin : w.files input = fileOf recs) (k : Nat) (r : Bytes)
    (hk : recs[k]? = some r) (hf : ∀ y, f k (parse r) ≠ .ok y) :
    (processRecordFile Ω junk pick key maxBytes parse f ser T cs input output w).1 ≠ .ok () ∧
    (processRecordFile Ω junk pick key maxBytes parse f ser T cs input output w).2.files output =
      w.files output := by
  have hne : recs ≠ [] := by rintro rfl; simp at hk
  refine ⟨?_, ?_⟩
  · intro h
    obtain ⟨outs, _, h1, -⟩ := C47_processed key Ω junk pick hp maxBytes parse f ser T cs hcs input
      output hne' w _ recs hlen hin (eq_pair h)
    obtain ⟨y, hy, -⟩ := h1.2 k r hk
    exact hf y hy
  · rw [fileOf_eq hlen] at hin
    have hi0 : ShardInv key output w [] [] ((Shard.init key maxBytes w).setPrefix output) :=
      ShardInv.start key output (Shard.init key maxBytes w) rfl rfl rfl rfl rfl rfl
    have hn0 : Named output w ((Shard.init key maxBytes w).setPrefix output) := by
      refine ⟨rfl, rfl, ?_, fun n _ => rfl⟩
      intro n hn
      simp [Shard.setPrefix, Shard.init] at hn
    have hfb : fileBytes recs ≠ [] := by
      match recs, hne with
      | d :: t, _ => exact fileBytes_ne_nil
    unfold processRecordFile
    rw [openRead, hin]
    simp only
    rw [Stream.hasMore_ne hfb]
    simp only [if_true]
    have hnl := Named.processLoop Ω junk parse f ser T cs ((fileBytes recs).length + 1) 0
      ⟨fileBytes recs, false⟩ _ hn0
    have hno : ¬ IsShard output output := by
      rintro ⟨i, e⟩
      exact shardName_ne output i e.symm
    cases hx : processLoop Ω junk parse f ser T cs output ((fileBytes recs).length + 1) 0
        ⟨fileBytes recs, false⟩ ((Shard.init key maxBytes w).setPrefix output) with
    | mk st wr =>
      rw [hx] at hnl
      cases st with
      | ok u =>
        exfalso
        obtain ⟨ys, g, k1, -⟩ := processLoop_ok (by omega) _ _ _ _ _ _ _ _ hne hlen hi0 hx
        obtain ⟨y, hy, -⟩ := (images_of_mapRes ser k1).2 k r hk
        rw [Nat.zero_add] at hy
        exact hf y hy
      | err e => exact hnl.other output hno
      | crash => exact hnl.other output hno
      | ub => exact hnl.other output hno

theorem inOut (i : Nat) : str "in" ≠ shardName (str "out") i := by
  intro h
  have h2 : (str "in").head? = (shardName (str "out") i).head? := by rw [← h]
  rw [show shardName (str "out") i = str "out" ++ Data.natToDec i from rfl] at h2
  revert h2
  rw [show str "out" = chr 'o' :: str "ut" from rfl, List.cons_append, List.head?_cons]
  decide

/-- A run with 3 threads, chunks of 2 records and a transformation that appends a byte. -/
example : ∃ w' outs sorted, processRecordFile .none 1 minPick lenKey 0 id
      (fun k (x : Bytes) => .ok (x ++ [Fin.ofNat 256 k])) id 3 2 (str "in") (str "out")
      ⟨fun n => if n = str "in" then fileOf [[1], [], [2, 2], [3], [4]] else none, 0⟩ =
        (.ok (), w') ∧
    Images id (fun k (x : Bytes) => .ok (x ++ [Fin.ofNat 256 k])) id
      [[1], [], [2, 2], [3], [4]] outs ∧
    sorted.Perm outs ∧ w'.files (str "out") = fileOf sorted := by
  have h := C47_no_faults lenKey 1 minPick minPick_min 0 id
    (fun k (x : Bytes) => (.ok (x ++ [Fin.ofNat 256 k]) : Res Bytes)) id 3 2 (by omega) (by omega)
    (str "in") (str "out") inOut
    ⟨fun n => if n = str "in" then fileOf [[1], [], [2, 2], [3], [4]] else none, 0⟩
    [[1], [], [2, 2], [3], [4]] (by decide) (by simp) (by
      intro k r hk
      refine ⟨_, rfl, ?_⟩
      have hm := List.mem_of_getElem? hk
      simp only [List.mem_cons, List.not_mem_nil, or_false] at hm
      rcases hm with rfl | rfl | rfl | rfl | rfl <;> simp)
  obtain ⟨outs, sorted, h1, h2, h3, h4, -⟩ := C47_processed lenKey .none 1 minPick minPick_min 0 id
    _ id 3 2 (by omega) (str "in") (str "out") inOut _ _ [[1], [], [2, 2], [3], [4]] (by decide)
    (by simp) (eq_pair h)
  exact ⟨_, outs, sorted, eq_pair h, h1, h2, h4⟩

/-- The conditions on the thread count and the chunk size are needed: with no threads the code
divides by zero, and with chunks of no records it never ends. -/
example : (processRecordFile .none 1 minPick lenKey 0 id (fun _ (x : Bytes) => .ok x) id 0 2
      (str "in") (str "out")
      ⟨fun n => if n = str "in" then some [1, 7] else none, 0⟩).1 = .ub ∧
    (processRecordFile .none 1 minPick lenKey 0 id (fun _ (x : Bytes) => .ok x) id 1 0
      (str "in") (str "out")
      ⟨fun n => if n = str "in" then some [1, 7] else none, 0⟩).1 = .ub := by
  constructor <;> decide +kernel

/-! ### C48 -/

/-- A path without one trailing separator. -/
def dropTrailing (p : Bytes) : Bytes := if p.getLast? = some slash then p.dropLast else p

/-- A path without one leading separator. -/
def dropLeading (p : Bytes) : Bytes := match p with
  | c :: cs => if c = slash then cs else c :: cs
  | [] => []

/-- Two nonempty paths with exactly one separator where they meet. -/
def join2 (a b : Bytes) : Bytes := dropTrailing a ++ [slash] ++ dropLeading b

/-- All nonempty components, joined from the left. -/
def joinSpec (paths : List Bytes) : Bytes :=
  match paths.filter (· ≠ []) with
  | [] => []
  | p :: ps => ps.foldl join2 p

theorem joinLoop_eq : ∀ (paths : List Bytes) (out : Bytes) (room : Nat) (trailing : Bool),
    out ≠ [] → trailing = decide (out.getLast? = some slash) →
    (paths.map fun p => p.length + 1).sum ≤ room →
    joinLoop paths out room trailing = .ok ((paths.filter (· ≠ [])).foldl join2 out) := by
  intro paths
  induction paths with
  | nil => intro out room tr _ _ _; rfl
  | cons path paths ih =>
    intro out room tr hne htr hroom
    rw [List.map_cons, List.sum_cons] at hroom
    cases path with
    | nil =>
      rw [joinLoop, ih out room tr hne htr (by simp only [List.length_nil] at hroom; omega)]
      rfl
    | cons c cs =>
      rw [joinLoop]
      obtain ⟨body, last, rfl⟩ : ∃ body last, out = body ++ [last] :=
        ⟨out.dropLast, out.getLast hne, (List.dropLast_append_getLast hne).symm⟩
      have hlast : (body ++ [last]).getLast? = some last := by simp
      rw [hlast] at htr
      have hj : join2 (body ++ [last]) (c :: cs) = (body ++ [last]) ++
          ((if c = slash then [] else if !tr && (body ++ [last]) ≠ [] then [slash] else []) ++
            (if c = slash then (if tr then cs else c :: cs) else c :: cs)) := by
        unfold join2 dropTrailing dropLeading
        rw [hlast]
        by_cases h1 : last = slash <;> by_cases h2 : c = slash <;> simp [htr, h1, h2]
      have hlen : ((if c = slash then [] else if !tr && (body ++ [last]) ≠ [] then [slash] else []) ++
            (if c = slash then (if tr then cs else c :: cs) else c :: cs)).length ≤
          (c :: cs).length + 1 := by
        by_cases h1 : tr = true <;> by_cases h2 : c = slash <;> simp [h1, h2] <;> omega
      simp only []
      rw [if_pos (by omega), ← hj]
      rw [ih _ _ _ (by simp [join2]) rfl (by omega)]
      simp

/-- **C48**.  `JoinPath` of any list of paths is the join of its nonempty components with
exactly one separator where two components meet; everything else is kept, and an absolute
later component does not discard the earlier ones.  The precomputed buffer is always large
enough. -/
theorem C48_join (paths : List Bytes) : joinPath paths = .ok (joinSpec paths) := by
  have main : ∀ (paths : List Bytes) (room : Nat),
      (paths.map List.length).sum + (paths.length - 1) ≤ room →
      joinLoop paths [] room false = .ok (joinSpec paths) := by
    intro paths
    induction paths with
    | nil => intro room _; rfl
    | cons path paths ih =>
      intro room hroom
      cases path with
      | nil =>
        rw [joinLoop, ih room (by simp at hroom ⊢; omega)]
        simp [joinSpec]
      | cons c cs =>
        have hsum : ∀ l : List Bytes, (l.map fun p => p.length + 1).sum =
            (l.map List.length).sum + l.length := by
          intro l
          induction l with
          | nil => rfl
          | cons a l ih => simp only [List.map_cons, List.sum_cons, ih, List.length_cons]; omega
        simp only [List.map_cons, List.sum_cons, List.length_cons, Nat.add_sub_cancel] at hroom
        rw [joinLoop]
        have hp : ((if c = slash then ([] : Bytes) else
              if !false && ([] : Bytes) ≠ [] then [slash] else []) ++
            (if c = slash then (if false = true then cs else c :: cs) else c :: cs)) = c :: cs := by
          by_cases h2 : c = slash <;> simp [h2]
        simp only []
        rw [hp, if_pos (by simp; omega)]
        rw [List.nil_append, joinLoop_eq _ _ _ _ (by simp) rfl (by rw [hsum]; simp; omega)]
        simp [joinSpec]
  unfold joinPath
  cases paths with
  | nil => rfl
  | cons p ps => exact main _ _ (by simp; omega)

/-- The examples in file.h:103-108. -/
example : joinPath [str "/foo", str "bar"] = .ok (str "/foo/bar") ∧
    joinPath [str "/foo/", str "bar"] = .ok (str "/foo/bar") ∧
    joinPath [str "/foo", str "/bar"] = .ok (str "/foo/bar") ∧
    joinPath [str "/foo", str "/bar", [], str "/baz"] = .ok (str "/foo/bar/baz") := by
  decide +kernel

end PJC.Rec
