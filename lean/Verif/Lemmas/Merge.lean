import Verif.Lemmas.RecordIO
import Mathlib.Data.List.Perm.Basic
import Mathlib.Data.List.Perm.Lattice
import Mathlib.Data.List.Nodup
import Mathlib.Tactic.Ring
import Mathlib.Tactic.Linarith
/-
The merging reader over files of records.
-/
namespace PJC.Rec

set_option linter.unusedSectionVars false

variable {κ : Type} [LinearOrder κ]

/-- What `std::priority_queue` with "greater" as its order promises: `top` is an element with
the least key, `pop` removes it and nothing else. -/
def Pick.Min (pick : Pick κ) : Prop :=
  pick [] = none ∧ ∀ h, h ≠ [] → ∃ top rest, pick h = some (top, rest) ∧
    h.Perm (top :: rest) ∧ ∀ x ∈ rest, top.key ≤ x.key

/-- Reader `r` has the records `rs` left. -/
def Holds (r : Option Stream) (rs : List Bytes) : Prop :=
  ∃ eof, r = some ⟨fileBytes rs, eof⟩ ∧ (eof = true → rs = []) ∧ ∀ x ∈ rs, x.length < 2 ^ 31

/-- The state of the reader: what is in the queue and what is left in the files. -/
structure Rel (key : Bytes → κ) (m : Merge κ) (Rs : List (List Bytes)) : Prop where
  readers : List.Forall₂ Holds m.readers Rs
  keyEq : m.key = some key
  nodup : (m.heap.map HeapData.index).Nodup
  entry : ∀ h ∈ m.heap, h.index < Rs.length ∧ h.key = key h.data

/-- The records of file `i` not yet returned, in order. -/
def pend (H : List (HeapData κ)) (Rs : List (List Bytes)) (i : Nat) : List Bytes :=
  (H.filter fun h => h.index = i).map HeapData.data ++ Rs.getD i []

theorem fileBytes_nil : fileBytes [] = [] := rfl

theorem fileBytes_ne_nil {d : Bytes} {t : List Bytes} : fileBytes (d :: t) ≠ [] := by
  rw [fileBytes_cons]
  simp [recBytes_ne_nil]

theorem Forall₂_getElem? {α β : Type} {R : α → β → Prop} {l : List α} {l' : List β}
    (h : List.Forall₂ R l l') {i : Nat} {b : β} (hi : l'[i]? = some b) :
    ∃ a, l[i]? = some a ∧ R a b := by
  induction h generalizing i with
  | nil => simp at hi
  | cons hab _ ih =>
    cases i with
    | zero => simp at hi; subst hi; exact ⟨_, rfl, hab⟩
    | succ n => simp at hi ⊢; exact ih hi

theorem Forall₂_set {α β : Type} {R : α → β → Prop} {l : List α} {l' : List β}
    (h : List.Forall₂ R l l') (i : Nat) {a : α} {b : β} (hab : R a b) :
    List.Forall₂ R (l.set i a) (l'.set i b) := by
  induction h generalizing i with
  | nil => exact .nil
  | cons h1 h2 ih =>
    cases i with
    | zero => exact .cons hab h2
    | succ n => exact .cons h1 (ih n)

theorem set_getElem?_self {α : Type} {l : List α} {i : Nat} {a : α} (h : l[i]? = some a) :
    l.set i a = l := by
  apply List.ext_getElem?
  intro j
  rw [List.getElem?_set]
  by_cases hij : i = j
  · subst hij
    have : i < l.length := by
      by_contra hc
      rw [List.getElem?_eq_none (by omega)] at h
      simp at h
    simp only [if_true, this, h]
  · simp [hij]

theorem flatten_set_perm {Rs : List (List Bytes)} {i : Nat} {d : Bytes} {t : List Bytes}
    (h : Rs[i]? = some (d :: t)) : (d :: (Rs.set i t).flatten).Perm Rs.flatten := by
  induction Rs generalizing i with
  | nil => simp at h
  | cons r Rs ih =>
    cases i with
    | zero => simp at h; subst h; simp
    | succ n =>
      simp only [List.getElem?_cons_succ] at h
      simp only [List.set_cons_succ, List.flatten_cons]
      exact (List.perm_middle.symm).trans ((ih h).append_left r)

theorem getD_set_ne {Rs : List (List Bytes)} {i j : Nat} (t : List Bytes) (h : j ≠ i) :
    (Rs.set i t).getD j [] = Rs.getD j [] := by
  simp only [List.getD_eq_getElem?_getD, List.getElem?_set]
  simp [Ne.symm h]

theorem getD_set_eq {Rs : List (List Bytes)} {i : Nat} (t : List Bytes) (h : i < Rs.length) :
    (Rs.set i t).getD i [] = t := by
  simp [List.getD_eq_getElem?_getD, h]

/-- `fetch` takes the next record of file `i` into the queue, if there is one. -/
theorem fetch_spec {key : Bytes → κ} {m : Merge κ} {Rs : List (List Bytes)} (junk : Nat)
    (h : Rel key m Rs) {i : Nat} (hi : i < Rs.length) (hno : ∀ x ∈ m.heap, x.index ≠ i) :
    ∃ m' Rs', m.fetch junk i = (.ok (), m') ∧ Rel key m' Rs' ∧ Rs'.length = Rs.length ∧
      (∀ j, pend m'.heap Rs' j = pend m.heap Rs j) ∧
      (m'.heap.map HeapData.data ++ Rs'.flatten).Perm (m.heap.map HeapData.data ++ Rs.flatten) ∧
      ((m'.heap = m.heap ∧ Rs' = Rs ∧ Rs.getD i [] = []) ∨
        ∃ d t, Rs[i]? = some (d :: t) ∧ Rs' = Rs.set i t ∧
          m'.heap = { key := key d, data := d, index := i } :: m.heap) := by
  have hg : Rs[i]? = some (Rs[i]) := List.getElem?_eq_getElem hi
  obtain ⟨r, hr, eof, rfl, heof, hlen⟩ := Forall₂_getElem? h.readers hg
  cases hRi : Rs[i] with
  | nil =>
    rw [hRi] at hr heof hlen hg
    refine ⟨{ m with readers := m.readers.set i (some ⟨[], true⟩) }, Rs, ?_, ?_, rfl, ?_, ?_, .inl ?_⟩
    · unfold Merge.fetch
      rw [hr]
      simp only [fileBytes_nil, Stream.hasMore_nil]
    · refine ⟨?_, h.keyEq, h.nodup, h.entry⟩
      have := Forall₂_set h.readers i (a := some ⟨[], true⟩) (b := [])
        ⟨true, rfl, fun _ => rfl, by simp⟩
      rwa [set_getElem?_self hg] at this
    · intro j; rfl
    · exact List.Perm.refl _
    · exact ⟨rfl, rfl, by simp [List.getD_eq_getElem?_getD, hg]⟩
  | cons d t =>
    rw [hRi] at hr heof hlen hg
    have heof : eof = false := by
      cases eof with
      | false => rfl
      | true => exact absurd (heof rfl) (by simp)
    subst heof
    refine ⟨{ m with
        readers := m.readers.set i (some ⟨fileBytes t, false⟩)
        heap := { key := key d, data := d, index := i } :: m.heap }, Rs.set i t,
      ?_, ?_, by simp, ?_, ?_, .inr ⟨d, t, hg, rfl, rfl⟩⟩
    · unfold Merge.fetch
      rw [hr]
      simp only [Stream.hasMore_ne fileBytes_ne_nil]
      rw [fileBytes_cons, readRecord_ok junk (hlen d (by simp))]
      simp only [h.keyEq]
    · refine ⟨?_, h.keyEq, ?_, ?_⟩
      · exact Forall₂_set h.readers i ⟨false, rfl, by simp,
          fun x hx => hlen x (List.mem_cons_of_mem _ hx)⟩
      · simp only [List.map_cons, List.nodup_cons]
        refine ⟨?_, h.nodup⟩
        intro hmem
        obtain ⟨x, hx, hxi⟩ := List.mem_map.1 hmem
        exact hno x hx hxi
      · intro x hx
        rcases List.mem_cons.1 hx with rfl | hx
        · simpa using hi
        · simpa using h.entry x hx
    · intro j
      unfold pend
      by_cases hj : j = i
      · subst hj
        have hnil : (m.heap.filter fun h => h.index = j) = [] := by
          rw [List.filter_eq_nil_iff]
          intro x hx
          simpa using hno x hx
        rw [getD_set_eq t hi]
        simp [hnil, List.getD_eq_getElem?_getD, hg]
      · rw [getD_set_ne t hj]
        simp [Ne.symm hj]
    · simp only [List.map_cons, List.cons_append]
      exact (List.perm_middle.symm).trans ((flatten_set_perm hg).append_left _)

/-- `fill` from file `i` on. -/
theorem fill_spec {key : Bytes → κ} (junk : Nat) : ∀ (n i : Nat) (m : Merge κ)
    (Rs : List (List Bytes)), Rel key m Rs → i + n = Rs.length → (∀ x ∈ m.heap, x.index < i) →
    (∀ j, j < i → Rs.getD j [] ≠ [] → ∃ x ∈ m.heap, x.index = j) →
    ∃ m' Rs', m.fill junk n i = (.ok (), m') ∧ Rel key m' Rs' ∧ Rs'.length = Rs.length ∧
      (∀ j, pend m'.heap Rs' j = pend m.heap Rs j) ∧
      (m'.heap.map HeapData.data ++ Rs'.flatten).Perm (m.heap.map HeapData.data ++ Rs.flatten) ∧
      (∀ j, Rs'.getD j [] ≠ [] → ∃ x ∈ m'.heap, x.index = j) := by
  intro n
  induction n with
  | zero =>
    intro i m Rs h hn hlt hcov
    refine ⟨m, Rs, rfl, h, rfl, fun _ => rfl, List.Perm.refl _, ?_⟩
    intro j hj
    apply hcov j _ hj
    by_contra hc
    apply hj
    rw [List.getD_eq_getElem?_getD, List.getElem?_eq_none (by omega)]
    rfl
  | succ n ih =>
    intro i m Rs h hn hlt hcov
    obtain ⟨m1, Rs1, h1, h2, h3, h4, h5, h6⟩ := fetch_spec junk h (i := i) (by omega)
      (fun x hx => by have := hlt x hx; omega)
    obtain ⟨m2, Rs2, g1, g2, g3, g4, g5, g6⟩ := ih (i + 1) m1 Rs1 h2 (by omega)
      (by
        intro x hx
        rcases h6 with ⟨e1, -, -⟩ | ⟨d, t, -, -, e1⟩
        · rw [e1] at hx; have := hlt x hx; omega
        · rw [e1] at hx
          rcases List.mem_cons.1 hx with rfl | hx
          · exact Nat.lt_succ_self _
          · have := hlt x hx; omega)
      (by
        intro j hj hne
        rcases h6 with ⟨e1, e2, e3⟩ | ⟨d, t, e0, e2, e1⟩
        · rw [e1]
          rw [e2] at hne
          rcases Nat.lt_succ_iff_lt_or_eq.1 hj with hj | rfl
          · exact hcov j hj hne
          · exact absurd e3 hne
        · rw [e1]
          rcases Nat.lt_succ_iff_lt_or_eq.1 hj with hj | rfl
          · rw [e2, getD_set_ne t (by omega)] at hne
            obtain ⟨x, hx, hxi⟩ := hcov j hj hne
            exact ⟨x, List.mem_cons_of_mem _ hx, hxi⟩
          · exact ⟨_, List.mem_cons_self, rfl⟩)
    refine ⟨m2, Rs2, ?_, g2, by omega, fun j => (g4 j).trans (h4 j), g5.trans h5, g6⟩
    rw [Merge.fill, h1]
    exact g1

/-- The queue is empty or has an entry of every file that has records left. -/
def Cover (H : List (HeapData κ)) (Rs : List (List Bytes)) : Prop :=
  H = [] ∨ ∀ j, Rs.getD j [] ≠ [] → ∃ x ∈ H, x.index = j

theorem filter_index_eq_of_perm {H H' : List (HeapData κ)} (h : H.Perm H')
    (hn : (H.map HeapData.index).Nodup) (i : Nat) :
    (H.filter fun x => x.index = i) = H'.filter fun x => x.index = i := by
  have hp := h.filter (fun x => decide (x.index = i))
  have hle : ∀ {H : List (HeapData κ)}, (H.map HeapData.index).Nodup →
      (H.filter fun x => decide (x.index = i)).length ≤ 1 := by
    intro H hn
    induction H with
    | nil => simp
    | cons x H ih =>
      rw [List.map_cons, List.nodup_cons] at hn
      rw [List.filter_cons]
      split
      · rename_i hx
        have : (H.filter fun x => decide (x.index = i)) = [] := by
          rw [List.filter_eq_nil_iff]
          intro y hy
          have hx' : x.index = i := by simpa using hx
          simp only [decide_eq_true_eq]
          intro hyi
          exact hn.1 (List.mem_map.2 ⟨y, hy, by rw [hyi, hx']⟩)
        simp [this]
      · exact ih hn.2
  have h1 := hle hn
  match hA : H.filter (fun x => decide (x.index = i)), hB : H'.filter (fun x => decide (x.index = i)) with
  | [], B => rw [hA, hB] at hp; rw [hA, hB, List.nil_perm.1 hp]
  | [a], B => rw [hA, hB] at hp; rw [hA, hB, List.singleton_perm.1 hp]
  | a :: b :: l, _ => rw [hA] at h1; simp at h1

/-- One `Read`: the record returned has a least key of all records not yet returned, and is
the first of its file. -/
theorem read_spec {key : Bytes → κ} {m : Merge κ} {Rs : List (List Bytes)} (junk : Nat)
    {pick : Pick κ} (hp : pick.Min) (h : Rel key m Rs) (hc : Cover m.heap Rs)
    (hsorted : ∀ j, ((pend m.heap Rs j).map key).Pairwise (· ≤ ·))
    (hmore : ∃ j, pend m.heap Rs j ≠ []) :
    ∃ d i m' Rs', m.read junk pick = (.ok (d, i), m') ∧ Rel key m' Rs' ∧ Rs'.length = Rs.length ∧
      Cover m'.heap Rs' ∧ i < Rs.length ∧
      (∀ j, j ≠ i → pend m.heap Rs j = pend m'.heap Rs' j) ∧
      pend m.heap Rs i = d :: pend m'.heap Rs' i ∧
      (m.heap.map HeapData.data ++ Rs.flatten).Perm
        (d :: (m'.heap.map HeapData.data ++ Rs'.flatten)) ∧
      ∀ j, ∀ x ∈ pend m.heap Rs j, key d ≤ key x := by
  -- the queue after filling
  have hfill : ∃ m1 Rs1, (if m.heap = [] then Merge.fill junk m.readers.length 0 m
        else (Res.ok (), m)) = (.ok (), m1) ∧ Rel key m1 Rs1 ∧ Rs1.length = Rs.length ∧
      (∀ j, pend m1.heap Rs1 j = pend m.heap Rs j) ∧
      (m1.heap.map HeapData.data ++ Rs1.flatten).Perm (m.heap.map HeapData.data ++ Rs.flatten) ∧
      (∀ j, Rs1.getD j [] ≠ [] → ∃ x ∈ m1.heap, x.index = j) := by
    by_cases he : m.heap = []
    · rw [if_pos he]
      refine fill_spec junk _ 0 m Rs h ?_ (by simp [he]) (by omega)
      rw [Nat.zero_add, h.readers.length_eq]
    · rw [if_neg he]
      exact ⟨m, Rs, rfl, h, rfl, fun _ => rfl, List.Perm.refl _, hc.resolve_left he⟩
  obtain ⟨m1, Rs1, h1, h2, h3, h4, h5, h6⟩ := hfill
  have hne : m1.heap ≠ [] := by
    intro he
    obtain ⟨j, hj⟩ := hmore
    rw [← h4 j, pend, he] at hj
    simp only [List.filter_nil, List.map_nil, List.nil_append] at hj
    obtain ⟨x, hx, -⟩ := h6 j hj
    rw [he] at hx
    simp at hx
  obtain ⟨top, rest, hpick, hperm, hmin⟩ := hp.2 m1.heap hne
  have htop : top ∈ m1.heap := hperm.mem_iff.2 (by simp)
  have hnd : ((top :: rest).map HeapData.index).Nodup := (hperm.map _).nodup_iff.1 h2.nodup
  rw [List.map_cons, List.nodup_cons] at hnd
  have hnotin : ∀ x ∈ rest, x.index ≠ top.index := fun x hx e =>
    hnd.1 (List.mem_map.2 ⟨x, hx, e⟩)
  have hrel2 : Rel key { m1 with heap := rest } Rs1 :=
    ⟨h2.readers, h2.keyEq, hnd.2, fun x hx => h2.entry x (hperm.mem_iff.2 (by simp [hx]))⟩
  obtain ⟨m2, Rs2, g1, g2, g3, g4, g5, g6⟩ := fetch_spec junk hrel2 (i := top.index)
    (h2.entry top htop).1 hnotin
  have hpend : ∀ j, pend m1.heap Rs1 j =
      (if top.index = j then [top.data] else []) ++ pend rest Rs1 j := by
    intro j
    unfold pend
    rw [filter_index_eq_of_perm hperm h2.nodup j, List.filter_cons]
    by_cases hj : top.index = j
    · simp [hj]
    · simp [hj]
  -- every entry of the queue is at least the top
  have hall : ∀ x ∈ m1.heap, top.key ≤ x.key := by
    intro x hx
    rcases List.mem_cons.1 (hperm.mem_iff.1 hx) with rfl | hx
    · exact le_refl _
    · exact hmin x hx
  refine ⟨top.data, top.index, m2, Rs2, ?_, g2, by omega, ?_, ?_, ?_, ?_, ?_, ?_⟩
  · unfold Merge.read
    simp only [h1, hpick, g1]
  · -- cover
    by_cases he : m2.heap = []
    · exact .inl he
    · right
      intro j hj
      rcases g6 with ⟨e1, e2, e3⟩ | ⟨d, t, e0, e2, e1⟩
      · rw [e2] at hj
        obtain ⟨x, hx, hxi⟩ := h6 j hj
        rcases List.mem_cons.1 (hperm.mem_iff.1 hx) with rfl | hx
        · rw [hxi] at e3; exact absurd e3 hj
        · exact ⟨x, by rw [e1]; exact hx, hxi⟩
      · by_cases hji : j = top.index
        · subst hji
          rw [e1]
          exact ⟨_, List.mem_cons_self, rfl⟩
        · rw [e2, getD_set_ne t hji] at hj
          obtain ⟨x, hx, hxi⟩ := h6 j hj
          rcases List.mem_cons.1 (hperm.mem_iff.1 hx) with rfl | hx
          · exact absurd hxi.symm hji
          · exact ⟨x, by rw [e1]; exact List.mem_cons_of_mem _ hx, hxi⟩
  · rw [← h3]; exact (h2.entry top htop).1
  · intro j hj
    rw [← h4 j, hpend j, if_neg (Ne.symm hj), List.nil_append, g4 j]
  · rw [← h4, hpend, if_pos rfl, g4]
    rfl
  · refine h5.symm.trans ?_
    refine ((hperm.map HeapData.data).append_right _).trans ?_
    simp only [List.map_cons, List.cons_append]
    exact (g5.symm).cons _
  · intro j x hx
    rw [← h4 j] at hx
    have htk : top.key = key top.data := (h2.entry top htop).2
    rw [← htk]
    -- the first pending record of file j is in the queue
    have hs := hsorted j
    rw [← h4 j] at hs
    obtain ⟨e, he, hei⟩ : ∃ e ∈ m1.heap, e.index = j := by
      by_contra hcon
      have hnil : (m1.heap.filter fun h => h.index = j) = [] := by
        rw [List.filter_eq_nil_iff]
        intro y hy
        simp only [decide_eq_true_eq]
        exact fun e => hcon ⟨y, hy, e⟩
      rw [pend, hnil, List.map_nil, List.nil_append] at hx
      exact hcon (h6 j (List.ne_nil_of_mem hx))
    have hef : e ∈ m1.heap.filter fun h => h.index = j := by
      rw [List.mem_filter]
      exact ⟨he, by simpa using hei⟩
    have hone : (m1.heap.filter fun h => h.index = j) = [e] := by
      obtain ⟨s, t, hst⟩ := List.append_of_mem he
      have hpm : m1.heap.Perm (e :: (s ++ t)) := by rw [hst]; exact List.perm_middle
      rw [filter_index_eq_of_perm hpm h2.nodup j]
      have hnd' := (hpm.map HeapData.index).nodup_iff.1 h2.nodup
      rw [List.map_cons, List.nodup_cons] at hnd'
      rw [List.filter_cons, if_pos (by simpa using hei)]
      congr 1
      rw [List.filter_eq_nil_iff]
      intro y hy
      simp only [decide_eq_true_eq]
      intro hyj
      exact hnd'.1 (List.mem_map.2 ⟨y, hy, by rw [hyj, hei]⟩)
    rw [pend, hone, List.map_cons, List.map_nil, List.singleton_append] at hx hs
    rw [List.map_cons, List.pairwise_cons] at hs
    have h7 := hall e he
    rw [(h2.entry e he).2] at h7
    rcases List.mem_cons.1 hx with rfl | hx
    · exact h7
    · exact h7.trans (hs.1 _ (List.mem_map_of_mem hx))

/-- The loop of `HasMore` over the readers. -/
theorem hasMoreLoop_spec {rs : List (Option Stream)} {Rs : List (List Bytes)}
    (h : List.Forall₂ Holds rs Rs) :
    ∃ rs', Merge.hasMoreLoop rs false = (.ok (decide (Rs.flatten ≠ [])), rs') ∧
      List.Forall₂ Holds rs' Rs := by
  induction h with
  | nil => exact ⟨[], rfl, .nil⟩
  | @cons r R rs Rs h1 h2 ih =>
    obtain ⟨rs', e1, e2⟩ := ih
    obtain ⟨eof, rfl, heof, hlen⟩ := h1
    cases R with
    | nil =>
      refine ⟨some ⟨[], true⟩ :: rs', ?_, .cons ⟨true, rfl, fun _ => rfl, by simp⟩ e2⟩
      simp only [Merge.hasMoreLoop, fileBytes_nil, Stream.hasMore_nil, e1]
      simp
    | cons d t =>
      have : eof = false := by
        cases eof with
        | false => rfl
        | true => exact absurd (heof rfl) (by simp)
      subst this
      refine ⟨some ⟨fileBytes (d :: t), false⟩ :: rs, ?_, .cons ⟨false, rfl, heof, hlen⟩ h2⟩
      simp only [Merge.hasMoreLoop, Stream.hasMore_ne fileBytes_ne_nil]
      simp

theorem pend_eq_nil {H : List (HeapData κ)} {Rs : List (List Bytes)}
    (h1 : H = []) (h2 : Rs.flatten = []) (j : Nat) : pend H Rs j = [] := by
  subst h1
  simp only [pend, List.filter_nil, List.map_nil, List.nil_append, List.getD_eq_getElem?_getD]
  cases hj : Rs[j]? with
  | none => rfl
  | some R =>
    have := List.mem_of_getElem? hj
    simp only [Option.getD_some]
    exact List.flatten_eq_nil_iff.1 h2 R this

theorem exists_pend {H : List (HeapData κ)} {Rs : List (List Bytes)}
    (h : H ≠ [] ∨ Rs.flatten ≠ []) : ∃ j, pend H Rs j ≠ [] := by
  rcases h with h | h
  · obtain ⟨x, hx⟩ := List.exists_mem_of_ne_nil _ h
    refine ⟨x.index, ?_⟩
    intro he
    rw [pend, List.append_eq_nil_iff, List.map_eq_nil_iff, List.filter_eq_nil_iff] at he
    exact he.1 x hx (by simp)
  · have : ∃ R ∈ Rs, R ≠ [] := by
      by_contra hc
      push Not at hc
      exact h (List.flatten_eq_nil_iff.2 hc)
    obtain ⟨R, hR, hne⟩ := this
    obtain ⟨j, hj⟩ := List.getElem?_of_mem hR
    refine ⟨j, ?_⟩
    rw [pend, List.getD_eq_getElem?_getD, hj]
    simp [hne]

/-- `HasMore`. -/
theorem hasMore_spec {key : Bytes → κ} {m : Merge κ} {Rs : List (List Bytes)} (h : Rel key m Rs) :
    ∃ m', m.hasMore = (.ok (decide (m.heap ≠ [] ∨ Rs.flatten ≠ [])), m') ∧ Rel key m' Rs ∧
      m'.heap = m.heap := by
  unfold Merge.hasMore
  by_cases he : m.heap = []
  · obtain ⟨rs', e1, e2⟩ := hasMoreLoop_spec h.readers
    refine ⟨{ m with readers := rs' }, ?_, ⟨e2, h.keyEq, h.nodup, h.entry⟩, rfl⟩
    simp [he, e1]
  · exact ⟨m, by simp [he], h, rfl⟩

/-- Number of records not yet returned. -/
def left (m : Merge κ) (Rs : List (List Bytes)) : Nat := m.heap.length + Rs.flatten.length

/-- Reading to the end. -/
theorem mergeReadAll_spec {key : Bytes → κ} (junk : Nat) {pick : Pick κ} (hp : pick.Min) :
    ∀ (fuel : Nat) (m : Merge κ) (Rs : List (List Bytes)), Rel key m Rs → Cover m.heap Rs →
    (∀ j, ((pend m.heap Rs j).map key).Pairwise (· ≤ ·)) → left m Rs < fuel →
    ∃ out m', m.readAll junk pick fuel = (out, .ok (), m') ∧
      (out.map fun x => key x.1).Pairwise (· ≤ ·) ∧
      (∀ j, ((out.filter fun x => x.2 = j).map Prod.fst) = pend m.heap Rs j) ∧
      (∀ x ∈ out, x.2 < Rs.length) ∧
      (out.map Prod.fst).Perm (m.heap.map HeapData.data ++ Rs.flatten) ∧
      Rel key m' (List.replicate Rs.length []) ∧ m'.heap = [] := by
  intro fuel
  induction fuel with
  | zero => intro m Rs _ _ _ hf; omega
  | succ fuel ih =>
    intro m Rs h hc hs hf
    obtain ⟨m1, e1, h1, hh⟩ := hasMore_spec h
    by_cases hmore : m.heap ≠ [] ∨ Rs.flatten ≠ []
    · rw [← hh] at hc hs
      have hmore1 : m1.heap ≠ [] ∨ Rs.flatten ≠ [] := by rw [hh]; exact hmore
      obtain ⟨d, i, m2, Rs2, g1, g2, g3, g4, g5, g6, g7, g8, g9⟩ :=
        read_spec junk hp h1 hc hs (exists_pend hmore1)
      have hl := g8.length_eq
      simp only [List.length_append, List.length_map, List.length_cons] at hl
      obtain ⟨out, m3, k1, k2, k3, k4, k5, k6, k7⟩ := ih m2 Rs2 g2 g4 (by
        intro j
        have := hs j
        by_cases hj : j = i
        · subst hj
          rw [g7, List.map_cons, List.pairwise_cons] at this
          exact this.2
        · rw [← g6 j hj]; exact this) (by unfold left at *; rw [hh] at hl; omega)
      refine ⟨(d, i) :: out, m3, ?_, ?_, ?_, ?_, ?_, ?_, k7⟩
      · rw [Merge.readAll, e1]
        simp only [hmore, decide_true, g1, k1]
      · rw [List.map_cons, List.pairwise_cons]
        refine ⟨?_, k2⟩
        intro x hx
        obtain ⟨y, hy, rfl⟩ := List.mem_map.1 hx
        have hy' : y.1 ∈ pend m2.heap Rs2 y.2 := by
          rw [← k3 y.2]
          exact List.mem_map.2 ⟨y, List.mem_filter.2 ⟨hy, by simp⟩, rfl⟩
        apply g9 y.2
        by_cases hyi : y.2 = i
        · rw [hyi] at hy' ⊢
          rw [g7]; exact List.mem_cons_of_mem _ hy'
        · rw [g6 _ hyi]; exact hy'
      · intro j
        rw [← hh, List.filter_cons]
        by_cases hj : i = j
        · subst hj
          simp only [decide_true, if_true, List.map_cons]
          rw [k3, g7]
        · simp only [hj, decide_false, Bool.false_eq_true, if_false]
          rw [k3, g6 j (Ne.symm hj)]
      · intro x hx
        rcases List.mem_cons.1 hx with rfl | hx
        · exact g5
        · rw [← g3]; exact k4 x hx
      · rw [List.map_cons, ← hh]
        exact (k5.cons _).trans g8.symm
      · rw [← g3]; exact k6
    · have hd : decide (m.heap ≠ [] ∨ Rs.flatten ≠ []) = false := by simpa using hmore
      push Not at hmore
      refine ⟨[], m1, ?_, by simp, ?_, by simp, ?_, ?_, by rw [hh]; exact hmore.1⟩
      · rw [Merge.readAll, e1]
        simp only [hd]
      · intro j
        rw [pend_eq_nil hmore.1 hmore.2]
        rfl
      · simp [hmore.1, hmore.2]
      · have : Rs = List.replicate Rs.length [] := by
          rw [List.eq_replicate_iff]
          exact ⟨rfl, List.flatten_eq_nil_iff.1 hmore.2⟩
        rw [← this]
        exact h1

/-! ### Opening and closing -/

theorem openLoop_ok {files : Bytes → Option Bytes} {names : List Bytes} {Rs : List (List Bytes)}
    (h : List.Forall₂ (fun n rs => files n = some (fileBytes rs)) names Rs) :
    ∀ acc, Merge.openLoop files names acc =
      (.ok (), acc ++ Rs.map fun rs => some ⟨fileBytes rs, false⟩) := by
  induction h with
  | nil => intro acc; simp [Merge.openLoop]
  | cons h1 h2 ih =>
    intro acc
    rw [Merge.openLoop, openRead, h1]
    simp only [ih, List.map_cons, List.append_assoc, List.singleton_append]

theorem open_ok {files : Bytes → Option Bytes} {names : List Bytes} {Rs : List (List Bytes)}
    (h : List.Forall₂ (fun n rs => files n = some (fileBytes rs)) names Rs)
    (hlen : ∀ R ∈ Rs, ∀ r ∈ R, r.length < 2 ^ 31) (key : Bytes → κ) (m : Merge κ)
    (hr : m.readers = []) (hh : m.heap = []) :
    ∃ m', m.open files names key = (.ok (), m') ∧ Rel key m' Rs ∧ m'.heap = [] ∧
      m'.readers = Rs.map fun rs => some ⟨fileBytes rs, false⟩ := by
  refine ⟨{ m with readers := Rs.map fun rs => some ⟨fileBytes rs, false⟩, key := some key },
    ?_, ⟨?_, rfl, by simp [hh], by simp [hh]⟩, hh, rfl⟩
  · unfold Merge.open
    simp [hr, openLoop_ok h]
  · simp only
    clear h
    induction Rs with
    | nil => exact .nil
    | cons R Rs ih =>
      refine .cons ⟨false, rfl, by simp, hlen R (by simp)⟩ (ih fun R hR => hlen R (by simp [hR]))

theorem close_ok {key : Bytes → κ} {m : Merge κ} {Rs : List (List Bytes)} (h : Rel key m Rs) :
    m.close = (.ok (), { m with readers := [], heap := [] }) := by
  have key : ∀ (rs : List (Option Stream)) (Rs : List (List Bytes)), List.Forall₂ Holds rs Rs →
      (Merge.close.go rs).1 = true := by
    intro rs Rs h
    induction h with
    | nil => rfl
    | cons h1 h2 ih =>
      obtain ⟨eof, rfl, -, -⟩ := h1
      simp only [Merge.close.go]
      exact ih
  unfold Merge.close
  simp [key _ _ h.readers]

theorem fileBytes_length (rs : List Bytes) : rs.length ≤ (fileBytes rs).length := by
  induction rs with
  | nil => simp
  | cons r rs ih =>
    rw [fileBytes_cons, List.length_append, List.length_cons]
    have := List.length_pos_of_ne_nil (recBytes_ne_nil r)
    omega

theorem size_open {Rs : List (List Bytes)} {m : Merge κ} (hh : m.heap = [])
    (hr : m.readers = Rs.map fun rs => some ⟨fileBytes rs, false⟩) : left m Rs < m.size + 1 := by
  unfold left Merge.size
  rw [hh, hr]
  apply Nat.lt_succ_of_le
  simp only [List.length_nil, Nat.zero_add, List.map_map]
  clear hr
  induction Rs with
  | nil => simp
  | cons R Rs ih =>
    have := fileBytes_length R
    simp only [List.flatten_cons, List.length_append, List.map_cons, List.sum_cons,
      Function.comp_apply]
    omega

end PJC.Rec
