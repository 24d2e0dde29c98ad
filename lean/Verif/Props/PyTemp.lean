import Verif.Model.PyTemp
import Verif.Lemmas.Interop
import Verif.Lemmas.BigNum
/-
C117: temporary numbers of the Python package and the functions that use them.
-/
namespace PJC.Py.Temp
open PJC

/-! ### Specification -/

/-- The numbers of the library that are allocated. -/
def live (s : Store) : Set Nat := { h | ∃ v, s.cells[h]? = some (some v) }

/-- The numbers that a value stands for: none and numbers from zero on, alone or in a list. -/
inductive Stands : Val → List Int → Prop where
  | none : Stands (.item .none) [0]
  | int {n : Int} (h : 0 ≤ n) : Stands (.item (.int n)) [n]
  | list {ns : List Int} (h0 : ns ≠ []) (h : ∀ n ∈ ns, 0 ≤ n) :
      Stands (.list (ns.map Item.int)) ns

/-- An attribute is a list exactly when a list was given. -/
def Attr.like : Attr → Val → Prop
  | .one _, .item _ => True
  | .many _, .list _ => True
  | _, _ => False

/-! ### Lemmas -/

theorem bind_apply {α β : Type} (x : M α) (f : α → M β) (s : Store) :
    M.bind x f s = match x s with
      | (.ok a, s') => f a s'
      | (.raises e, s') => (.raises e, s')
      | (.ub, s') => (.ub, s') := rfl

theorem bnNew_apply (s : Store) :
    bnNew s = (.ok s.cells.length, { s with cells := s.cells ++ [some 0] }) := rfl

theorem bnSet_last (cs : List (Option Int)) (c : Nat) (a v : Int) :
    bnSet cs.length v ⟨cs ++ [some a], c⟩ = (.ok (), ⟨cs ++ [some v], c⟩) := by
  simp [bnSet]

theorem longToBn_last (cs : List (Option Int)) (c : Nat) (a n : Int) :
    longToBn cs.length n ⟨cs ++ [some a], c⟩ =
      if n < 0 then (.raises .valueError, ⟨cs ++ [some a], c⟩)
      else (.ok (), ⟨cs ++ [some n], c⟩) := by
  unfold longToBn
  rcases lt_trichotomy n 0 with h | h | h
  · rw [longToBytes_neg h]
    simp [h, M.raise]
  · subst h
    rw [longToBytes_zero]
    simp only [bnSet_last]
    rfl
  · rw [longToBytes_pos h]
    simp only [bnSet_last, BN.ofBytes_natToBytes, Int.toNat_of_nonneg h.le, not_lt.2 h.le, if_false]

/-- What is stored for a value that is not a list. -/
def stored : Item → Option Int
  | .none => some 0
  | .int n => if n < 0 then none else some n
  | .bytes _ => some 0
  | .str cs => some (BN.ofBytes ((wide cs).take cs.length))

theorem conv_last (cs : List (Option Int)) (c : Nat) (i : Item) :
    bytesOrLongToBn cs.length i ⟨cs ++ [some 0], c⟩ =
      match stored i with
      | some v => (.ok (), ⟨cs ++ [some v], c⟩)
      | none => (.raises .valueError, ⟨cs ++ [some 0], c⟩) := by
  cases i with
  | none => rfl
  | bytes bs => rfl
  | str w => simp only [bytesOrLongToBn, bnSet_last, stored]
  | int n =>
    simp only [bytesOrLongToBn, longToBn_last, stored]
    split_ifs <;> rfl

theorem conv_truthy (cs : List (Option Int)) (c : Nat) (i : Item) :
    (if i.truthy then bytesOrLongToBn cs.length i else M.ret ()) ⟨cs ++ [some 0], c⟩ =
      match stored i with
      | some v => (.ok (), ⟨cs ++ [some v], c⟩)
      | none => (.raises .valueError, ⟨cs ++ [some 0], c⟩) := by
  rw [← conv_last]
  by_cases h : i.truthy
  · rw [if_pos h]
  · rw [if_neg h, conv_last]
    cases i with
    | none => rfl
    | bytes bs => rfl
    | str w =>
      have : w = [] := by simpa [Item.truthy] using h
      subst this
      rfl
    | int n =>
      have : n = 0 := by simpa [Item.truthy] using h
      subst this
      rfl

theorem newItems_spec : ∀ (is : List Item) (s : Store),
    ∃ new : List (Option Int), (∀ c ∈ new, c.isSome) ∧
      (newItems is s).2 = { s with cells := s.cells ++ new } ∧
      (((newItems is s).1 = .raises .valueError) ∨
        ((newItems is s).1 = .ok (List.range' s.cells.length new.length) ∧
          new = is.map stored)) := by
  intro is
  induction is with
  | nil => intro s; exact ⟨[], by simp, by simp [newItems, M.ret], by simp [newItems, M.ret]⟩
  | cons i rest ih =>
    intro s
    rw [newItems, bind_apply, bnNew_apply]
    simp only [bind_apply]
    rw [conv_last]
    cases hi : stored i with
    | none => exact ⟨[some 0], by simp, rfl, Or.inl rfl⟩
    | some v =>
      simp only
      obtain ⟨new, h1, h2, h3⟩ := ih ⟨s.cells ++ [some v], s.ctxs⟩
      rcases hr : newItems rest ⟨s.cells ++ [some v], s.ctxs⟩ with ⟨o, s'⟩
      rw [hr] at h2 h3
      simp only at h2 h3
      refine ⟨some v :: new, by simpa using h1, ?_, ?_⟩
      · rcases h3 with h3 | ⟨h3, -⟩ <;> simp [h3, h2, M.ret]
      · rcases h3 with h3 | ⟨h3, h4⟩
        · exact Or.inl (by simp [h3])
        · refine Or.inr ⟨?_, by simp [hi, h4]⟩
          rw [h3]
          simp [M.ret, List.range'_succ]

theorem newItems_ok : ∀ (is : List Item) (s : Store), (∀ i ∈ is, (stored i).isSome) →
    (newItems is s).1 ≠ .raises .valueError := by
  intro is
  induction is with
  | nil => intro s _; simp [newItems, M.ret]
  | cons i rest ih =>
    intro s h
    rw [newItems, bind_apply, bnNew_apply]
    simp only [bind_apply]
    rw [conv_last]
    obtain ⟨v, hv⟩ := Option.isSome_iff_exists.1 (h i (by simp))
    rw [hv]
    simp only
    have := ih ⟨s.cells ++ [some v], s.ctxs⟩ (fun j hj => h j (by simp [hj]))
    rcases hr : newItems rest ⟨s.cells ++ [some v], s.ctxs⟩ with ⟨o, s'⟩
    rw [hr] at this
    cases o with
    | ok hs => simp [M.ret]
    | raises e => simpa using this
    | ub => simp

theorem newVal_spec (v : Val) (s : Store) :
    ∃ new : List (Option Int), (∀ c ∈ new, c.isSome) ∧
      (newVal v s).2 = { s with cells := s.cells ++ new } ∧
      ((∃ e, (newVal v s).1 = .raises e) ∨
        ∃ a, (newVal v s).1 = .ok a ∧ a.handles = List.range' s.cells.length new.length) := by
  rcases v with i | is
  · simp only [newVal, bind_apply, bnNew_apply]
    rw [conv_truthy]
    cases hi : stored i with
    | none => exact ⟨[some 0], by simp, rfl, Or.inl ⟨_, rfl⟩⟩
    | some v =>
      exact ⟨[some v], by simp, rfl, Or.inr ⟨_, rfl, by simp [Attr.handles]⟩⟩
  · rw [newVal]
    split_ifs with he
    · exact ⟨[], by simp, by simp [M.raise], Or.inl ⟨_, rfl⟩⟩
    · simp only [bind_apply]
      obtain ⟨new, h1, h2, h3⟩ := newItems_spec is s
      rcases hr : newItems is s with ⟨o, s'⟩
      rw [hr] at h2 h3
      simp only at h2 h3
      rcases h3 with h3 | ⟨h3, -⟩
      · subst h3
        exact ⟨new, h1, by simpa using h2, Or.inl ⟨_, rfl⟩⟩
      · subst h3 h2
        exact ⟨new, h1, rfl, Or.inr ⟨_, rfl, rfl⟩⟩

theorem initLoop_spec : ∀ (kw : List (String × Val)) (t : Temps) (s : Store),
    ∃ new : List (Option Int), (∀ c ∈ new, c.isSome) ∧
      (initLoop kw t s).2 = { s with cells := s.cells ++ new } ∧
      ((∃ e, (initLoop kw t s).1 = .raises e) ∨
        ∃ t', (initLoop kw t s).1 = .ok t' ∧
          t'.args = t.args ++ List.range' s.cells.length new.length) := by
  intro kw
  induction kw with
  | nil =>
    intro t s
    exact ⟨[], by simp, by simp [initLoop, M.ret], Or.inr ⟨t, by simp [initLoop, M.ret], by simp⟩⟩
  | cons kv rest ih =>
    intro t s
    rw [initLoop]
    split_ifs with hk
    · exact ⟨[], by simp, by simp [M.raise], Or.inl ⟨_, rfl⟩⟩
    simp only [bind_apply]
    obtain ⟨new, h1, h2, h3⟩ := newVal_spec kv.2 s
    rcases hr : newVal kv.2 s with ⟨o, s'⟩
    rw [hr] at h2 h3
    simp only at h2 h3
    rcases h3 with ⟨e, h3⟩ | ⟨a, h3, h4⟩
    · subst h3
      exact ⟨new, h1, by simpa using h2, Or.inl ⟨_, rfl⟩⟩
    · subst h3 h2
      simp only
      obtain ⟨new', g1, g2, g3⟩ := ih { attrs := t.attrs ++ [(kv.1, a)], args := t.args ++ a.handles }
        { s with cells := s.cells ++ new }
      refine ⟨new ++ new', ?_, by simpa using g2, ?_⟩
      · intro c hc
        rcases List.mem_append.1 hc with h | h
        · exact h1 c h
        · exact g1 c h
      · rcases g3 with g3 | ⟨t', g3, g4⟩
        · exact Or.inl g3
        · refine Or.inr ⟨t', g3, ?_⟩
          rw [g4, h4]
          simp [List.range'_append_1]

theorem mem_live_append {cs new : List (Option Int)} {c c' : Nat} (hn : ∀ x ∈ new, x.isSome)
    (h : Nat) : h ∈ live ⟨cs ++ new, c⟩ ↔
      h ∈ live ⟨cs, c'⟩ ∨ h ∈ List.range' cs.length new.length := by
  simp only [live, Set.mem_ofPred_eq, List.mem_range'_1]
  by_cases hlt : h < cs.length
  · rw [List.getElem?_append_left hlt]
    constructor
    · exact Or.inl
    · rintro (h | h)
      · exact h
      · omega
  · rw [List.getElem?_append_right (by omega)]
    constructor
    · rintro ⟨v, hv⟩
      have := (List.getElem?_eq_some_iff.1 hv).1
      exact Or.inr (by omega)
    · rintro (⟨v, hv⟩ | hin)
      · have := (List.getElem?_eq_some_iff.1 hv).1
        omega
      · have hl : h - cs.length < new.length := by omega
        have := hn _ (List.getElem_mem hl)
        obtain ⟨v, hv⟩ := Option.isSome_iff_exists.1 this
        exact ⟨v, by rw [List.getElem?_eq_getElem hl, hv]⟩

theorem exit_spec : ∀ (hs : List Nat) (s : Store), hs.Nodup → (∀ h ∈ hs, h ∈ live s) →
    ∃ s', exit hs s = (.ok (), s') ∧ s'.ctxs = s.ctxs ∧
      (∀ h ∈ hs, s'.cells[h]? = some none) ∧ (∀ h ∉ hs, s'.cells[h]? = s.cells[h]?) := by
  intro hs
  induction hs with
  | nil => intro s _ _; exact ⟨s, rfl, rfl, by simp, by simp⟩
  | cons h rest ih =>
    intro s hnd hl
    obtain ⟨v, hv⟩ := hl h (by simp)
    rw [List.nodup_cons] at hnd
    have hlen := (List.getElem?_eq_some_iff.1 hv).1
    have hfree : bnFree h s = (.ok (), { s with cells := s.cells.set h none }) := by
      simp [bnFree, hv]
    obtain ⟨s', h1, h2, h3, h4⟩ := ih { s with cells := s.cells.set h none } hnd.2 (by
      intro k hk
      obtain ⟨w, hw⟩ := hl k (by simp [hk])
      refine ⟨w, ?_⟩
      have : h ≠ k := fun e => hnd.1 (e ▸ hk)
      simpa [List.getElem?_set_ne this] using hw)
    refine ⟨s', ?_, h2, ?_, ?_⟩
    · rw [exit, bind_apply, hfree]
      exact h1
    · intro k hk
      rcases List.mem_cons.1 hk with rfl | hk
      · rw [h4 k hnd.1]
        simp [hlen]
      · exact h3 k hk
    · intro k hk
      rw [List.mem_cons, not_or] at hk
      rw [h4 k hk.2]
      simp [List.getElem?_set_ne (Ne.symm hk.1)]

theorem Stands.det {v : Val} {ns ns' : List Int} (h : Stands v ns) (h' : Stands v ns') :
    ns = ns' := by
  cases h with
  | none => cases h'; rfl
  | int => cases h'; rfl
  | list =>
    generalize hv : Val.list (ns.map Item.int) = v at h'
    cases h' with
    | none => simp at hv
    | int => simp at hv
    | list =>
      simp only [Val.list.injEq] at hv
      exact List.map_injective_iff.2 (fun a b e => by simpa using e) hv

theorem getElem?_range'_append (cs mid post : List (Option Int)) :
    (List.range' cs.length mid.length).map (fun h => (cs ++ mid ++ post)[h]?) = mid.map some := by
  apply List.ext_getElem
  · simp
  · intro i h1 h2
    simp only [List.length_map, List.length_range'] at h1
    simp only [List.getElem_map, List.getElem_range', one_mul]
    rw [List.append_assoc, List.getElem?_append_right (by omega),
      List.getElem?_append_left (by omega)]
    simp [List.getElem?_eq_getElem h1]

theorem newVal_plain {v : Val} {ns : List Int} (hns : Stands v ns) (s : Store) :
    ∃ a : Attr, a.like v ∧ a.handles = List.range' s.cells.length (ns.map some).length ∧
      newVal v s = (.ok a, { s with cells := s.cells ++ ns.map some }) := by
  cases hns with
  | none =>
    refine ⟨.one s.cells.length, trivial, by simp [Attr.handles], ?_⟩
    simp only [newVal, bind_apply, bnNew_apply]
    rw [conv_truthy]
    rfl
  | @int n h =>
    refine ⟨.one s.cells.length, trivial, by simp [Attr.handles], ?_⟩
    simp only [newVal, bind_apply, bnNew_apply]
    rw [conv_truthy]
    simp only [stored, not_lt.2 h, if_false]
    rfl
  | list h0 h =>
    obtain ⟨new, h1, h2, h3⟩ := newItems_spec (ns.map Item.int) s
    have hst : (ns.map Item.int).map stored = ns.map some := by
      rw [List.map_map]
      apply List.map_congr_left
      intro x hx
      simp [stored, not_lt.2 (h x hx)]
    rcases h3 with h3 | ⟨h3, h4⟩
    · exfalso
      refine newItems_ok (ns.map Item.int) s ?_ h3
      intro i hi
      obtain ⟨x, hx, rfl⟩ := List.mem_map.1 hi
      simp [stored, not_lt.2 (h x hx)]
    · rw [hst] at h4
      subst h4
      refine ⟨.many (List.range' s.cells.length (ns.map some).length), trivial, rfl, ?_⟩
      rw [newVal, if_neg (by simpa using h0), bind_apply]
      rcases hr : newItems (ns.map Item.int) s with ⟨o, s'⟩
      rw [hr] at h2 h3
      simp only at h2 h3
      subst h2 h3
      rfl

/-- The closed form of the loop on plain values. -/
theorem initLoop_plain : ∀ (kw : List (String × Val)) (t : Temps) (s : Store),
    (kw.map (·.1)).Nodup → (∀ kv ∈ kw, t.hasattr kv.1 = false) →
    (∀ kv ∈ kw, ∃ ns, Stands kv.2 ns) →
    ∃ A new, initLoop kw t s = (.ok ⟨t.attrs ++ A, t.args ++ List.range' s.cells.length new.length⟩,
        { s with cells := s.cells ++ new }) ∧ (∀ c ∈ new, c.isSome) ∧
      List.Forall₂ (fun (kv : String × Val) (ka : String × Attr) => ka.1 = kv.1 ∧ ka.2.like kv.2 ∧
        ∀ ns, Stands kv.2 ns →
          ka.2.handles.map (fun h => (s.cells ++ new)[h]?) = ns.map (some ∘ some)) kw A := by
  intro kw
  induction kw with
  | nil =>
    intro t s _ _ _
    exact ⟨[], [], by simp [initLoop, M.ret], by simp, .nil⟩
  | cons kv rest ih =>
    intro t s hnd hres hval
    obtain ⟨key, value⟩ := kv
    simp only [List.map_cons, List.nodup_cons] at hnd
    have hres' : ∀ (a : Attr) (args : List Nat), ∀ kv ∈ rest,
        (Temps.mk (t.attrs ++ [(key, a)]) args).hasattr kv.1 = false := by
      intro a args kv hkv
      have h1 := hres kv (by simp [hkv])
      have h2 : key ≠ kv.1 := fun e => hnd.1 (e ▸ List.mem_map_of_mem hkv)
      simp only [Temps.hasattr, Bool.or_eq_false_iff, List.any_append] at h1 ⊢
      refine ⟨h1.1, h1.2, by simpa using h2⟩
    have hval' : ∀ kv ∈ rest, ∃ ns, Stands kv.2 ns := fun kv h => hval kv (by simp [h])
    obtain ⟨ns, hns⟩ := hval (key, value) (by simp)
    have hk := hres (key, value) (by simp)
    rw [initLoop, hk]
    simp only [Bool.false_eq_true, if_false, bind_apply]
    obtain ⟨a, hlike, hh, heq⟩ := newVal_plain hns s
    rw [heq]
    simp only
    obtain ⟨mid, hmid⟩ : ∃ mid : List (Option Int), mid = ns.map some := ⟨_, rfl⟩
    rw [← hmid] at hh ⊢
    obtain ⟨A, new, g1, g2, g3⟩ := ih (.mk (t.attrs ++ [(key, a)]) (t.args ++ a.handles))
      { s with cells := s.cells ++ mid } hnd.2 (hres' _ _) hval'
    refine ⟨(key, a) :: A, mid ++ new, ?_, ?_, .cons ⟨rfl, hlike, ?_⟩ ?_⟩
    · rw [g1, hh]
      simp [List.range'_append_1]
    · intro c hc
      rcases List.mem_append.1 hc with h | h
      · rw [hmid] at h
        obtain ⟨x, _, rfl⟩ := List.mem_map.1 h
        rfl
      · exact g2 c h
    · intro ns' hns'
      rw [← hns.det hns']
      show a.handles.map _ = _
      rw [hh, ← List.append_assoc, getElem?_range'_append, hmid, List.map_map]
    · simpa [List.append_assoc] using g3

theorem lookup_forall₂ {R : String × Val → String × Attr → Prop}
    (hR : ∀ kv ka, R kv ka → ka.1 = kv.1) :
    ∀ {kw : List (String × Val)} {A : List (String × Attr)}, List.Forall₂ R kw A →
      (kw.map (·.1)).Nodup → ∀ kv ∈ kw, ∃ a, A.lookup kv.1 = some a ∧ R kv (kv.1, a) := by
  intro kw A h
  induction h with
  | nil => simp
  | @cons kv ka kw A h1 _ ih =>
    intro hnd kv' hkv'
    simp only [List.map_cons, List.nodup_cons] at hnd
    have he := hR _ _ h1
    obtain ⟨k, a⟩ := ka
    simp only at he
    subst he
    rcases List.mem_cons.1 hkv' with rfl | hmem
    · exact ⟨a, by simp [List.lookup], h1⟩
    · obtain ⟨a', h2, h3⟩ := ih hnd.2 kv' hmem
      refine ⟨a', ?_, h3⟩
      have : kv'.1 ≠ kv.1 := fun e => hnd.1 (e ▸ List.mem_map_of_mem hmem)
      rw [List.lookup, show (kv'.1 == kv.1) = false by simpa using this]
      exact h2

theorem newVal_item {i : Item} {v : Int} (h : stored i = some v) (cs : List (Option Int)) (c : Nat) :
    newVal (.item i) ⟨cs, c⟩ = (.ok (.one cs.length), ⟨cs ++ [some v], c⟩) := by
  simp only [newVal, bind_apply, bnNew_apply]
  rw [conv_truthy, h]
  rfl

theorem newVal_item_raises {i : Item} (h : stored i = none) (cs : List (Option Int)) (c : Nat) :
    newVal (.item i) ⟨cs, c⟩ = (.raises .valueError, ⟨cs ++ [some 0], c⟩) := by
  simp only [newVal, bind_apply, bnNew_apply]
  rw [conv_truthy, h]

theorem initLoop_item {k : String} {i : Item} {v : Int} {t : Temps} (ht : t.hasattr k = false)
    (h : stored i = some v) (rest : List (String × Val)) (cs : List (Option Int)) (c : Nat) :
    initLoop ((k, .item i) :: rest) t ⟨cs, c⟩ =
      initLoop rest ⟨t.attrs ++ [(k, .one cs.length)], t.args ++ [cs.length]⟩
        ⟨cs ++ [some v], c⟩ := by
  rw [initLoop, ht]
  simp only [Bool.false_eq_true, if_false, bind_apply]
  rw [newVal_item h]
  rfl

theorem initLoop_item_raises {k : String} {i : Item} {t : Temps} (ht : t.hasattr k = false)
    (h : stored i = none) (rest : List (String × Val)) (cs : List (Option Int)) (c : Nat) :
    initLoop ((k, .item i) :: rest) t ⟨cs, c⟩ = (.raises .valueError, ⟨cs ++ [some 0], c⟩) := by
  rw [initLoop, ht]
  simp only [Bool.false_eq_true, if_false, bind_apply]
  rw [newVal_item_raises h]

theorem stored_int {n : Int} (h : 0 ≤ n) : stored (.int n) = some n := by
  simp [stored, not_lt.2 h]

theorem stored_neg {n : Int} (h : n < 0) : stored (.int n) = none := by simp [stored, h]

theorem withTemps_raises {α : Type} {kw : List (String × Val)} {body : Temps → M α} {s s1 : Store}
    {e : Exc} (h : init kw s = (.raises e, s1)) : withTemps kw body s = (.raises e, s1) := by
  rw [withTemps, bind_apply, h]

/-! ### Theorems -/

/-- Inside the block each name is the number that was given for it, in numbers of its own. -/
theorem C117_values (kw : List (String × Val)) (s : Store)
    (hkeys : (kw.map (·.1)).Nodup) (hres : ∀ kv ∈ kw, kv.1 ∉ reserved)
    (hval : ∀ kv ∈ kw, ∃ ns, Stands kv.2 ns) :
    ∃ t s', init kw s = (.ok t, s') ∧
      (∀ kv ∈ kw, ∃ a, t.attrs.lookup kv.1 = some a ∧ a.like kv.2 ∧
        ∀ ns, Stands kv.2 ns → a.handles.map (fun h => s'.cells[h]?) = ns.map (some ∘ some)) ∧
      (∀ h, s.cells.length ≤ h → (h ∈ t.args ↔ h ∈ live s')) ∧ t.args.Nodup ∧
      (∀ h ∈ t.args, s.cells.length ≤ h) ∧ (∀ h < s.cells.length, s'.cells[h]? = s.cells[h]?) := by
  obtain ⟨A, new, h1, h2, h3⟩ := initLoop_plain kw {} s hkeys (by
    intro kv hkv
    simpa [Temps.hasattr] using hres kv hkv) hval
  simp only [List.nil_append] at h1
  refine ⟨_, _, h1, ?_, ?_, List.nodup_range', ?_, ?_⟩
  · intro kv hkv
    obtain ⟨a, g1, g2⟩ := lookup_forall₂ (fun _ _ h => h.1) h3 hkeys kv hkv
    exact ⟨a, g1, g2.2.1, g2.2.2⟩
  · intro h hh
    show h ∈ List.range' _ _ ↔ h ∈ live ⟨s.cells ++ new, s.ctxs⟩
    rw [mem_live_append (c' := s.ctxs) h2]
    constructor
    · exact Or.inr
    · rintro (⟨v, hv⟩ | g)
      · have := (List.getElem?_eq_some_iff.1 hv).1
        simp only at this
        omega
      · exact g
  · intro h hh
    exact (List.mem_range'_1.1 hh).1
  · intro h hh
    exact List.getElem?_append_left hh

/-- Whatever the names and values: when the object could be made, then after the block its numbers
are freed, each once, whether the body returned or raised, and no other number is touched. -/
theorem C117_released_partial {α : Type} (kw : List (String × Val)) (body : Temps → M α)
    (s s1 s2 : Store) (t : Temps) (o : Out α) (hi : init kw s = (.ok t, s1))
    (hb : body t s1 = (o, s2)) (ho : o ≠ .ub) (hl : live s2 = live s1) :
    ∃ s3, withTemps kw body s = (o, s3) ∧ live s3 = live s ∧ s3.ctxs = s2.ctxs ∧
      ∀ h ∈ live s, s3.cells[h]? = s2.cells[h]? := by
  obtain ⟨new, h1, h2, h3⟩ := initLoop_spec kw {} s
  rw [show initLoop kw {} s = (.ok t, s1) from hi] at h2 h3
  simp only at h2
  obtain ⟨t', ht, hargs⟩ : ∃ t' : Temps, Out.ok t = Out.ok t' ∧
      t'.args = [] ++ List.range' s.cells.length new.length := by
    rcases h3 with ⟨e, h3⟩ | h3
    · simp at h3
    · exact h3
  cases ht
  rw [List.nil_append] at hargs
  have hlive1 : ∀ h, h ∈ live s1 ↔ h ∈ live s ∨ h ∈ t.args := by
    intro h
    rw [h2, hargs]
    exact mem_live_append h1 h
  have hdisj : ∀ h ∈ live s, h ∉ t.args := by
    rintro h ⟨v, hv⟩ hh
    have := (List.getElem?_eq_some_iff.1 hv).1
    rw [hargs, List.mem_range'_1] at hh
    omega
  obtain ⟨s3, g1, g2, g3, g4⟩ := exit_spec t.args s2 (hargs ▸ List.nodup_range')
    (fun h hh => by rw [hl, hlive1]; exact Or.inr hh)
  refine ⟨s3, ?_, ?_, g2, fun h hh => g4 h (hdisj h hh)⟩
  · rw [withTemps, bind_apply, hi]
    simp only
    rw [hb]
    cases o with
    | ok a => simp [bind_apply, g1, M.ret]
    | raises e => simp [bind_apply, g1, M.raise]
    | ub => exact absurd rfl ho
  · ext h
    by_cases hh : h ∈ t.args
    · constructor
      · rintro ⟨v, hv⟩
        rw [g3 h hh] at hv
        simp at hv
      · intro hs
        exact absurd hh (hdisj h hs)
    · have : h ∈ live s3 ↔ h ∈ live s2 := by
        simp only [live, Set.mem_ofPred_eq, g4 h hh]
      rw [this, hl, hlive1]
      simp [hh]

/-- A body that only writes to its own numbers. -/
theorem released_own {α : Type} {kw : List (String × Val)} {body : Temps → M α}
    {cs new new' : List (Option Int)} {c c' : Nat} {t : Temps} {o : Out α}
    (hi : init kw ⟨cs, c⟩ = (.ok t, ⟨cs ++ new, c⟩))
    (hb : body t ⟨cs ++ new, c⟩ = (o, ⟨cs ++ new', c'⟩)) (ho : o ≠ .ub)
    (h1 : ∀ x ∈ new, x.isSome) (h2 : ∀ x ∈ new', x.isSome) (hlen : new'.length = new.length) :
    ∃ s', withTemps kw body ⟨cs, c⟩ = (o, s') ∧ live s' = live ⟨cs, c⟩ ∧ s'.ctxs = c' ∧
      ∀ h ∈ live ⟨cs, c⟩, s'.cells[h]? = cs[h]? := by
  obtain ⟨s', g1, g2, g3, g4⟩ := C117_released_partial kw body _ _ _ t o hi hb ho (by
    ext h
    rw [mem_live_append (c' := 0) h2, mem_live_append (c' := 0) h1, hlen])
  exact ⟨s', g1, g2, g3, fun h hh => (g4 h hh).trans (List.getElem?_append_left (by
    obtain ⟨v, hv⟩ := hh
    exact (List.getElem?_eq_some_iff.1 hv).1))⟩

theorem modExp_init (g x n : Int) (hg : 0 ≤ g) (hx : 0 ≤ x) (hn : 0 ≤ n) (cs : List (Option Int))
    (c : Nat) : init [("r", .item .none), ("g", .item (.int g)), ("x", .item (.int x)),
      ("n", .item (.int n))] ⟨cs, c⟩ =
      (.ok ⟨[("r", .one cs.length), ("g", .one (cs.length + 1)), ("x", .one (cs.length + 2)),
        ("n", .one (cs.length + 3))], [cs.length, cs.length + 1, cs.length + 2, cs.length + 3]⟩,
        ⟨cs ++ [some 0, some g, some x, some n], c⟩) := by
  rw [init, initLoop_item (by decide) (v := 0) rfl,
    initLoop_item (by simp [Temps.hasattr, reserved]) (stored_int hg),
    initLoop_item (by simp [Temps.hasattr, reserved]) (stored_int hx),
    initLoop_item (by simp [Temps.hasattr, reserved]) (stored_int hn), initLoop]
  simp [M.ret]

/-- `ModExp(g, x, n)` is `g^x mod n`; modulus zero is an AssertionError.  Afterwards the library has
the numbers it had before, and one context more. -/
theorem C117_modExp (g x n : Int) (hg : 0 ≤ g) (hx : 0 ≤ x) (hn : 0 ≤ n) (s : Store) :
    ∃ s', modExp g x n s =
        (if n = 0 then .raises .assertionError else .ok (g ^ x.toNat % n), s') ∧
      live s' = live s ∧ s'.ctxs = s.ctxs + 1 ∧ ∀ h ∈ live s, s'.cells[h]? = s.cells[h]? := by
  obtain ⟨cs, c⟩ := s
  have hi := modExp_init g x n hg hx hn cs c
  rcases eq_or_lt_of_le hn with rfl | hn
  · exact released_own (new' := [some 0, some g, some x, some 0]) hi (by
      simp [bind_apply, openSSLHelper, Temps.get, List.lookup_cons, M.ret, M.raise, bnModExp, bnGet,
        List.getElem?_append_right]) (by simp) (by simp) (by simp) (by simp)
  · have hpos : 0 ≤ g ^ x.toNat % n := Int.emod_nonneg _ hn.ne'
    rw [if_neg hn.ne']
    exact released_own (new' := [some (g ^ x.toNat % n), some g, some x, some n]) hi (by
      simp [bind_apply, openSSLHelper, Temps.get, List.lookup_cons, M.ret, bnModExp, bnGet, bnSet,
        bnToLong, List.getElem?_append_right, hn.ne', bytesToLong_eq, BN.ofBytes_natToBytes, hpos])
      (by simp) (by simp) (by simp) (by simp)

example : (modExp 3 5 7 {}).1 = .ok 5 := by decide
example : (modExp 3 5 0 {}).1 = .raises .assertionError := by decide

/-- `ModInverse(x, n)` is the inverse in `[0, n)`, or an AssertionError if there is none.  Afterwards
the library has the numbers it had before, and one context more. -/
theorem C117_modInverse (x n : Int) (hx : 0 ≤ x) (hn : 1 < n) (s : Store) :
    ∃ o s', modInverse x n s = (o, s') ∧
      (Int.gcd x n = 1 → ∃ r, o = .ok r ∧ 0 ≤ r ∧ r < n ∧ n ∣ x * r - 1) ∧
      (Int.gcd x n ≠ 1 → o = .raises .assertionError) ∧
      live s' = live s ∧ s'.ctxs = s.ctxs + 1 ∧ ∀ h ∈ live s, s'.cells[h]? = s.cells[h]? := by
  obtain ⟨cs, c⟩ := s
  have hi : init [("r", .item .none), ("x", .item (.int x)), ("n", .item (.int n))] ⟨cs, c⟩ =
      (.ok ⟨[("r", .one cs.length), ("x", .one (cs.length + 1)), ("n", .one (cs.length + 2))],
        [cs.length, cs.length + 1, cs.length + 2]⟩, ⟨cs ++ [some 0, some x, some n], c⟩) := by
    rw [init, initLoop_item (by decide) (v := 0) rfl,
      initLoop_item (by simp [Temps.hasattr, reserved]) (stored_int hx),
      initLoop_item (by simp [Temps.hasattr, reserved]) (stored_int (by omega)), initLoop]
    simp [M.ret]
  have hn0 : n ≠ 0 := by omega
  by_cases hg : Int.gcd x n = 1
  · obtain ⟨h1, h2, h3⟩ := BN.inv_spec (by omega : 0 < n) hg
    obtain ⟨s', g1, g2⟩ := released_own (new' := [some (BN.inv x n), some x, some n])
      (o := .ok (BN.inv x n)) (c' := c + 1) (body := fun bn =>
        openSSLHelper.bind fun _ =>
          (bn.get "r").bind fun r => (bn.get "x").bind fun hx => (bn.get "n").bind fun hn =>
            (bnModInverse r hx hn).bind fun _ => bnToLong r) hi (by
      simp [bind_apply, openSSLHelper, Temps.get, List.lookup_cons, M.ret, bnModInverse, bnGet,
        bnSet, bnToLong, List.getElem?_append_right, hn0, hg, bytesToLong_eq,
        BN.ofBytes_natToBytes, h2]) (by simp) (by simp) (by simp) (by simp)
    exact ⟨_, s', g1, fun _ => ⟨_, rfl, h2, h3, Int.ModEq.dvd h1.symm⟩, fun h => absurd hg h, g2⟩
  · obtain ⟨s', g1, g2⟩ := released_own (new' := [some 0, some x, some n])
      (o := (.raises .assertionError : Out Int)) (c' := c + 1) (body := fun bn =>
        openSSLHelper.bind fun _ =>
          (bn.get "r").bind fun r => (bn.get "x").bind fun hx => (bn.get "n").bind fun hn =>
            (bnModInverse r hx hn).bind fun _ => bnToLong r) hi (by
      simp [bind_apply, openSSLHelper, Temps.get, List.lookup_cons, M.ret, M.raise, bnModInverse,
        bnGet, List.getElem?_append_right, hg]) (by simp) (by simp) (by simp) (by simp)
    exact ⟨_, s', g1, fun h => absurd h hg, fun _ => rfl, g2⟩

example : (modInverse 3 7 {}).1 = .ok 5 := by decide
example : (modInverse 6 9 {}).1 = .raises .assertionError := by decide

theorem random_eq (start stop : Int) (h : start ≤ stop) (w : Nat) (s : Store) :
    ∃ s', getRandomInRange start stop w s =
        (if start = stop then .raises .assertionError
          else .ok ((w : Int) % (stop - start) + start), s') ∧
      live s' = live s ∧ s'.ctxs = s.ctxs ∧ ∀ h ∈ live s, s'.cells[h]? = s.cells[h]? := by
  obtain ⟨cs, c⟩ := s
  have hi : init [("rand", .item .none), ("interval", .item (.int (stop - start)))] ⟨cs, c⟩ =
      (.ok ⟨[("rand", .one cs.length), ("interval", .one (cs.length + 1))],
        [cs.length, cs.length + 1]⟩, ⟨cs ++ [some 0, some (stop - start)], c⟩) := by
    rw [init, initLoop_item (by decide) (v := 0) rfl,
      initLoop_item (by simp [Temps.hasattr, reserved]) (stored_int (by omega)), initLoop]
    simp [M.ret]
  by_cases he : start = stop
  · exact released_own (new' := [some 0, some (stop - start)]) hi (by
      simp [bind_apply, Temps.get, List.lookup_cons, M.ret, M.raise, bnRandRange,
        bnGet, List.getElem?_append_right, he]) (by simp [he]) (by simp) (by simp) (by simp)
  · have h1 : ¬ stop - start ≤ 0 := by omega
    have h2 : 0 ≤ (w : Int) % (stop - start) := Int.emod_nonneg _ (by omega)
    rw [if_neg he]
    have hle : ¬ stop ≤ start := by omega
    exact released_own (new' := [some ((w : Int) % (stop - start)), some (stop - start)]) hi (by
      simp [bind_apply, Temps.get, List.lookup_cons, M.ret, bnRandRange, bnSet, bnToLong,
        bnGet, List.getElem?_append_right, hle, bytesToLong_eq, BN.ofBytes_natToBytes, h2])
      (by simp) (by simp) (by simp) (by simp)

/-- `GetRandomInRange(start, stop)`: a number in the range, also when the bounds are negative; an
empty range is an AssertionError.  Afterwards the library has the numbers it had before. -/
theorem C117_random (start stop : Int) (h : start ≤ stop) (w : Nat) (s : Store) :
    ∃ o s', getRandomInRange start stop w s = (o, s') ∧
      (start < stop → ∃ v, o = .ok v ∧ start ≤ v ∧ v < stop) ∧
      (start = stop → o = .raises .assertionError) ∧
      live s' = live s ∧ s'.ctxs = s.ctxs ∧ ∀ h ∈ live s, s'.cells[h]? = s.cells[h]? := by
  obtain ⟨s', g1, g2⟩ := random_eq start stop h w s
  refine ⟨_, s', g1, fun hlt => ?_, fun he => if_pos he, g2⟩
  have h1 := Int.emod_nonneg (w : Int) (by omega : stop - start ≠ 0)
  have h2 := Int.emod_lt_of_pos (w : Int) (by omega : 0 < stop - start)
  exact ⟨_, if_neg hlt.ne, by omega, by omega⟩

/-- Each number of the range comes from exactly one of `stop - start` equally likely words. -/
theorem C117_uniform (start stop : Int) (s : Store) (v : Int) (h1 : start ≤ v) (h2 : v < stop) :
    ∃! w : Nat, w < (stop - start).toNat ∧ (getRandomInRange start stop w s).1 = .ok v := by
  have hval : ∀ w : Nat, (getRandomInRange start stop w s).1 =
      .ok ((w : Int) % (stop - start) + start) := by
    intro w
    obtain ⟨s', g1, -⟩ := random_eq start stop (by omega) w s
    rw [g1, if_neg (by omega)]
  refine ⟨(v - start).toNat, ⟨by omega, ?_⟩, ?_⟩
  · rw [hval, Int.toNat_of_nonneg (by omega), Int.emod_eq_of_lt (by omega) (by omega)]
    simp
  · rintro w ⟨hw, hv⟩
    rw [hval, Int.emod_eq_of_lt (by omega) (by omega)] at hv
    simp only [Out.ok.injEq] at hv
    omega

example : (getRandomInRange (-3) 4 12 {}).1 = .ok 2 := by decide

/-- The wish that nothing is left behind fails when a number is negative: the call raises
`ValueError` and three numbers stay allocated for ever. -/
theorem C117_leak_fails (g x n : Int) (hg : 0 ≤ g) (hx : x < 0) (s : Store) :
    (modExp g x n s).1 = .raises .valueError ∧
      live (modExp g x n s).2 =
        live s ∪ {s.cells.length, s.cells.length + 1, s.cells.length + 2} ∧
      ∀ h ∈ live s, h < s.cells.length := by
  obtain ⟨cs, c⟩ := s
  have hi : init [("r", .item .none), ("g", .item (.int g)), ("x", .item (.int x)),
      ("n", .item (.int n))] ⟨cs, c⟩ =
      (.raises .valueError, ⟨cs ++ [some 0, some g, some 0], c⟩) := by
    rw [init, initLoop_item (by decide) (v := 0) rfl,
      initLoop_item (by simp [Temps.hasattr, reserved]) (stored_int hg),
      initLoop_item_raises (by simp [Temps.hasattr, reserved]) (stored_neg hx)]
    simp
  rw [modExp, withTemps_raises hi]
  refine ⟨rfl, ?_, ?_⟩
  · ext h
    simp only
    rw [mem_live_append (c' := c) (by simp)]
    simp only [List.length_cons, List.length_nil, List.mem_range'_1, Set.mem_union,
      Set.mem_insert_iff, Set.mem_singleton_iff]
    exact or_congr Iff.rfl (by omega)
  · rintro h ⟨v, hv⟩
    exact (List.getElem?_eq_some_iff.1 hv).1

example : (modExp 2 (-1) 5 {}).2.cells = [some 0, some 2, some 0] := by decide

/-- A context is left behind by each call that computes. -/
theorem C117_context_leak_fails (calls : List (Int × Int × Int))
    (hc : ∀ q ∈ calls, 0 ≤ q.1 ∧ 0 ≤ q.2.1 ∧ 0 ≤ q.2.2) (s : Store) :
    (calls.foldl (fun s q => (modExp q.1 q.2.1 q.2.2 s).2) s).ctxs = s.ctxs + calls.length := by
  induction calls generalizing s with
  | nil => rfl
  | cons q rest ih =>
    obtain ⟨h1, h2, h3⟩ := hc q (by simp)
    obtain ⟨s', g1, -, g3, -⟩ := C117_modExp q.1 q.2.1 q.2.2 h1 h2 h3 s
    rw [List.foldl_cons, g1, ih (fun p hp => hc p (by simp [hp])), g3, List.length_cons]
    omega

/-- The documentation of `TempBNs` says that bytes can be given as well as numbers.  Whatever the
bytes, the number is zero. -/
theorem C117_bytes_fails (k : String) (hk : k ∉ reserved) (bs : Bytes) (s : Store) :
    ∃ t s' h, init [(k, .item (.bytes bs))] s = (.ok t, s') ∧ t.attrs.lookup k = some (.one h) ∧
      s'.cells[h]? = some (some 0) := by
  obtain ⟨cs, c⟩ := s
  refine ⟨⟨[(k, .one cs.length)], [cs.length]⟩, ⟨cs ++ [some 0], c⟩, cs.length, ?_, ?_, ?_⟩
  · rw [init, initLoop_item (by simpa [Temps.hasattr] using hk) (v := 0) rfl, initLoop]
    rfl
  · simp
  · simp

/-- A `str` is not read as one byte per character: the two characters 1 and 2 give 256; and of the
six characters 0x030201, 1, 1, 1, 1, 1 the first gives 1, 2, 3, 0 and the second 1, 0. -/
theorem C117_str_fails :
    (∃ t s' h, init [("y", .item (.str [1, 2]))] {} = (.ok t, s') ∧
      t.attrs.lookup "y" = some (.one h) ∧ s'.cells[h]? = some (some 256) ∧
      BN.ofBytes [1, 2] = 258) ∧
    (∃ t s' h, init [("y", .item (.str [0x030201, 1, 1, 1, 1, 1]))] {} = (.ok t, s') ∧
      t.attrs.lookup "y" = some (.one h) ∧
      s'.cells[h]? = some (some (BN.ofBytes [1, 2, 3, 0, 1, 0]))) :=
  ⟨⟨⟨[("y", .one 0)], [0]⟩, ⟨[some 256], 0⟩, 0, by decide, by decide, by decide, by decide⟩,
    ⟨⟨[("y", .one 0)], [0]⟩, ⟨[some (BN.ofBytes [1, 2, 3, 0, 1, 0])], 0⟩, 0, by decide +kernel,
      by decide, by decide⟩⟩

/-- The case of `C117_values`: a number, a list and none. -/
example : ∃ t s', init [("x", .item (.int 5)), ("y", .list [.int 10, .int 11]), ("r", .item .none)]
    ⟨[some 1], 0⟩ = (.ok t, s') ∧ t.attrs.lookup "y" = some (.many [2, 3]) ∧
    s'.cells = [some 1, some 5, some 10, some 11, some 0] :=
  ⟨⟨[("x", .one 1), ("y", .many [2, 3]), ("r", .one 4)], [1, 2, 3, 4]⟩,
    ⟨[some 1, some 5, some 10, some 11, some 0], 0⟩, by decide, by decide, rfl⟩

end PJC.Py.Temp
