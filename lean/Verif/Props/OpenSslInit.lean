import Verif.Model.OpenSslInit
import Mathlib.Data.List.Nodup
import Mathlib.Tactic.Linarith
/-
C120: initialisation of the library's locking, under every schedule of any number of threads.
-/
namespace PJC.Ossl

/-! ### Specification -/

/-- A well-behaved thread on a library with `k` locks, `held` being the locks it has and `ready` whether
its `OpenSSLInit()` has returned: it uses locks only after that, asks only for locks that exist and that
it does not have, gives back only locks that it has, and has none at the end. -/
def Proper (k : Nat) : List Int → Bool → List Act → Prop
  | held, _, [] => held = []
  | held, _, .init :: r => Proper k held true r
  | held, ready, .lock n :: r => ready = true ∧ 0 ≤ n ∧ n < k ∧ n ∉ held ∧ Proper k (n :: held) ready r
  | held, ready, .unlock n :: r => n ∈ held ∧ Proper k (held.erase n) ready r

/-- A thread that asks for locks in increasing order only. -/
def Ordered : List Int → List Act → Prop
  | _, [] => True
  | held, .init :: r => Ordered held r
  | held, .lock n :: r => (∀ m ∈ held, m < n) ∧ Ordered (n :: held) r
  | held, .unlock n :: r => Ordered (held.erase n) r

instance : ∀ k held ready acts, Decidable (Proper k held ready acts)
  | _, held, _, [] => inferInstanceAs (Decidable (held = []))
  | k, held, _, .init :: r => instDecidableProper k held true r
  | k, held, ready, .lock n :: r =>
    have := instDecidableProper k (n :: held) ready r
    inferInstanceAs (Decidable (ready = true ∧ 0 ≤ n ∧ n < k ∧ n ∉ held ∧ Proper k (n :: held) ready r))
  | k, held, ready, .unlock n :: r =>
    have := instDecidableProper k (held.erase n) ready r
    inferInstanceAs (Decidable (n ∈ held ∧ Proper k (held.erase n) ready r))

/-! ### Steps -/

theorem run_append (s : St) (a b : List Nat) : run s (a ++ b) = run (run s a) b := by
  induction a generalizing s with
  | nil => rfl
  | cons t ts ih => exact ih _

/-- What every step keeps holds after every schedule. -/
theorem run_induct {P : St → Prop} (h : ∀ s t s', P s → step s t = some s' → P s') {s : St} (hs : P s)
    (sched : List Nat) : P (run s sched) := by
  induction sched generalizing s with
  | nil => exact hs
  | cons t ts ih =>
    refine ih ?_
    cases hst : step s t with
    | none => exact hs
    | some s' => exact h s t s' hs hst

theorem upd_same {α : Type} (f : Nat → α) (t : Nat) (a : α) : upd f t a t = a := if_pos rfl

theorem upd_other {α : Type} (f : Nat → α) {t u : Nat} (h : u ≠ t) (a : α) : upd f t a u = f u :=
  if_neg h

/-- The state of the initialisation: how far it is, and what has been done. -/
def OnceInv (s : St) : Prop :=
  match s.once with
  | .notYet => s.loads = 0 ∧ s.idCallback = false ∧ s.lockCallback = false ∧ ∀ t, s.inited t = false
  | .running u pc =>
    pc ≤ 3 ∧ (∃ r, s.todo u = .init :: r) ∧ s.loads = (if 1 ≤ pc then 1 else 0) ∧
      s.idCallback = decide (2 ≤ pc) ∧ s.lockCallback = decide (3 ≤ pc) ∧ ∀ t, s.inited t = false
  | .done => s.loads = 1 ∧ s.idCallback = true ∧ s.lockCallback = true

theorem once_start (k : Nat) (todo : Nat → List Act) : OnceInv (start k todo) :=
  ⟨rfl, rfl, rfl, fun _ => rfl⟩

/-- What a step by a thread in the library leaves alone. -/
theorem step_lib {s s' : St} {t : Nat} (hst : step s t = some s') (h : ∀ r, s.todo t ≠ .init :: r) :
    s'.once = s.once ∧ s'.loads = s.loads ∧ s'.idCallback = s.idCallback ∧
      s'.lockCallback = s.lockCallback ∧ s'.inited = s.inited ∧ s'.numLocks = s.numLocks ∧
      ∀ u, u ≠ t → s'.todo u = s.todo u := by
  unfold step at hst
  split at hst
  · cases hst
  cases htd : s.todo t with
  | nil => rw [htd] at hst; cases hst
  | cons a r =>
    rw [htd] at hst
    cases a with
    | init => exact absurd htd (h r)
    | lock n =>
      simp only [stepLock] at hst
      split_ifs at hst
      · cases hst; exact ⟨rfl, rfl, rfl, rfl, rfl, rfl, fun u hu => upd_other _ hu _⟩
      · cases hst; exact ⟨rfl, rfl, rfl, rfl, rfl, rfl, fun u hu => rfl⟩
      · cases hst; exact ⟨rfl, rfl, rfl, rfl, rfl, rfl, fun u hu => rfl⟩
      · split at hst
        · cases hst; exact ⟨rfl, rfl, rfl, rfl, rfl, rfl, fun u hu => upd_other _ hu _⟩
        · cases hst
    | unlock n =>
      simp only [stepUnlock] at hst
      split_ifs at hst
      · cases hst; exact ⟨rfl, rfl, rfl, rfl, rfl, rfl, fun u hu => upd_other _ hu _⟩
      · cases hst; exact ⟨rfl, rfl, rfl, rfl, rfl, rfl, fun u hu => rfl⟩
      · cases hst; exact ⟨rfl, rfl, rfl, rfl, rfl, rfl, fun u hu => rfl⟩
      · cases hst; exact ⟨rfl, rfl, rfl, rfl, rfl, rfl, fun u hu => upd_other _ hu _⟩
      · cases hst; exact ⟨rfl, rfl, rfl, rfl, rfl, rfl, fun u hu => rfl⟩

theorem once_step (s : St) (t : Nat) (s' : St) (hs : OnceInv s) (hst : step s t = some s') :
    OnceInv s' := by
  by_cases hi : ∃ r, s.todo t = .init :: r
  · obtain ⟨r, hr⟩ := hi
    unfold step at hst
    split at hst
    · cases hst
    rw [hr] at hst
    simp only [stepInit] at hst
    unfold OnceInv at hs
    split at hst
    · rename_i ho
      rw [ho] at hs
      cases hst
      exact ⟨by omega, ⟨r, hr⟩, by simpa using hs.1, by simpa using hs.2.1, by simpa using hs.2.2.1,
        hs.2.2.2⟩
    · rename_i u pc ho
      rw [ho] at hs
      split at hst
      · cases hst
      rename_i hu
      rw [not_not] at hu
      subst hu
      obtain ⟨h1, h2, h3, h4, h5, h6⟩ := hs
      rcases pc with _ | _ | _ | _ | pc
      · cases hst
        refine ⟨by omega, ⟨r, hr⟩, ?_, by simpa using h4, by simpa using h5, h6⟩
        simp only [h3]; rfl
      · cases hst
        exact ⟨by omega, ⟨r, hr⟩, by simpa using h3, rfl, by simpa using h5, h6⟩
      · cases hst
        exact ⟨by omega, ⟨r, hr⟩, by simpa using h3, by simpa using h4, rfl, h6⟩
      · cases hst
        exact ⟨by simpa using h3, by simpa using h4, by simpa using h5⟩
      · omega
    · rename_i ho
      rw [ho] at hs
      cases hst
      show OnceInv _
      unfold OnceInv
      simp only [ho]
      exact hs
  · obtain ⟨h1, h2, h3, h4, h5, -, h7⟩ := step_lib hst (fun r hr => hi ⟨r, hr⟩)
    unfold OnceInv at hs ⊢
    rw [h1, h2, h3, h4, h5]
    split at hs
    · exact hs
    · rename_i u pc ho
      obtain ⟨g1, ⟨r, g2⟩, g3⟩ := hs
      refine ⟨g1, ⟨r, ?_⟩, g3⟩
      rw [h7 u ?_, g2]
      rintro rfl
      exact hi ⟨r, g2⟩
    · exact hs

theorem once_run (k : Nat) (todo : Nat → List Act) (sched : List Nat) :
    OnceInv (run (start k todo) sched) :=
  run_induct once_step (once_start k todo) sched

/-- **C120, once**.  Whatever the threads do and however they are scheduled, the initialisation is done
at most once, and it is complete when any call of `OpenSSLInit()` returns. -/
theorem C120_once (k : Nat) (todo : Nat → List Act) (sched : List Nat) :
    let s := run (start k todo) sched
    s.loads ≤ 1 ∧
      ∀ t, s.inited t = true → s.loads = 1 ∧ s.idCallback = true ∧ s.lockCallback = true := by
  intro s
  have h := once_run k todo sched
  change OnceInv s at h
  unfold OnceInv at h
  split at h
  · exact ⟨by omega, fun t ht => by rw [h.2.2.2 t] at ht; cases ht⟩
  · refine ⟨?_, fun t ht => by rw [h.2.2.2.2.2 t] at ht; cases ht⟩
    rw [h.2.2.1]
    split <;> omega
  · exact ⟨by omega, fun t _ => h⟩

/-! ### Locks -/

/-- The locks are as the threads believe; with `e`, threads may use locks as soon as the callback is
set. -/
structure LockInv (e : Bool) (s : St) : Prop where
  fault : s.fault = .none
  proper : ∀ t, Proper s.numLocks (s.held t) (s.lockCallback && (s.inited t || e)) (s.todo t)
  ready : ∀ t, s.held t ≠ [] → s.lockCallback = true
  nodup : ∀ t, (s.held t).Nodup
  range : ∀ t, ∀ n ∈ s.held t, 0 ≤ n
  holds : ∀ t, ∀ n ∈ s.held t, s.holder n.toNat = some t
  back : ∀ m t, s.holder m = some t → (m : Int) ∈ s.held t

theorem Proper.mono {k : Nat} {held : List Int} {b : Bool} {acts : List Act}
    (h : Proper k held b acts) : Proper k held true acts := by
  induction acts generalizing held b with
  | nil => exact h
  | cons a r ih =>
    cases a with
    | init => exact h
    | lock n => exact ⟨rfl, h.2.1, h.2.2.1, h.2.2.2.1, ih h.2.2.2.2⟩
    | unlock n => exact ⟨h.1, ih h.2⟩

/-- A step of the initialisation keeps the locks. -/
theorem lock_step_init {e : Bool} {s s' : St} {t : Nat} {r : List Act} (ho : OnceInv s) (h : LockInv e s)
    (hr : s.todo t = .init :: r) (hst : stepInit s t r = some s') : LockInv e s' := by
  have hp := h.proper t
  rw [hr] at hp
  have hp' : Proper s.numLocks (s.held t) true r := hp
  -- a thread that holds a lock has been initialised, hence the callback is set and remains so
  have key : ∀ u, Proper s.numLocks (s.held u) true (s.todo u) := fun u => (h.proper u).mono
  have fin : s.lockCallback = true →
      LockInv e { s with todo := upd s.todo t r, inited := upd s.inited t true } := by
    intro hl
    refine ⟨h.fault, fun u => ?_, fun u hu => hl, h.nodup, h.range, h.holds, h.back⟩
    by_cases e : u = t
    · subst e
      simpa only [upd_same, hl, Bool.and_self, Bool.true_or] using hp'
    · simpa only [upd_other _ e] using h.proper u
  simp only [stepInit] at hst
  split at hst
  · cases hst
    exact ⟨h.fault, h.proper, h.ready, h.nodup, h.range, h.holds, h.back⟩
  · rename_i u pc ho'
    unfold OnceInv at ho
    rw [ho'] at ho
    split at hst
    · cases hst
    rcases pc with _ | _ | _ | _ | pc
    · cases hst
      exact ⟨h.fault, h.proper, h.ready, h.nodup, h.range, h.holds, h.back⟩
    · cases hst
      exact ⟨h.fault, h.proper, h.ready, h.nodup, h.range, h.holds, h.back⟩
    · cases hst
      refine ⟨h.fault, fun v => ?_, fun v hv => rfl, h.nodup, h.range, h.holds, h.back⟩
      have hv := h.proper v
      cases e with
      | true => simpa only [Bool.or_true, Bool.and_true] using key v
      | false =>
        rw [ho.2.2.2.2.2 v, Bool.or_false, Bool.and_false] at hv
        simpa only [ho.2.2.2.2.2 v, Bool.or_false, Bool.and_false] using hv
    · cases hst
      have hl : s.lockCallback = true := by rw [ho.2.2.2.2.1]; rfl
      have := fin hl
      exact ⟨this.fault, this.proper, this.ready, this.nodup, this.range, this.holds, this.back⟩
    · have := ho.1
      omega
  · rename_i ho'
    unfold OnceInv at ho
    rw [ho'] at ho
    cases hst
    exact fin ho.2.2

theorem toNat_inj {a b : Int} (ha : 0 ≤ a) (hb : 0 ≤ b) (h : a.toNat = b.toNat) : a = b := by omega

theorem lock_step_lock {e : Bool} {s s' : St} {t : Nat} {n : Int} {r : List Act} (h : LockInv e s)
    (hr : s.todo t = .lock n :: r) (hst : stepLock s t n r = some s') : LockInv e s' := by
  have hp := h.proper t
  rw [hr] at hp
  obtain ⟨p1, p2, p3, p4, p5⟩ := hp
  rw [Bool.and_eq_true] at p1
  simp only [stepLock] at hst
  rw [if_neg (by simp [p1.1]), if_neg (by omega), if_neg (by omega)] at hst
  split at hst
  · rename_i hf
    cases hst
    refine ⟨h.fault, fun u => ?_, fun u hu => ?_, fun u => ?_, fun u m hm => ?_, fun u m hm => ?_,
      fun m u hm => ?_⟩
    · by_cases e : u = t
      · subst e
        simpa only [upd_same] using p5
      · simpa only [upd_other _ e] using h.proper u
    · exact p1.1
    · by_cases e : u = t
      · subst e
        simpa only [upd_same, List.nodup_cons] using ⟨p4, h.nodup u⟩
      · simpa only [upd_other _ e] using h.nodup u
    · by_cases e : u = t
      · subst e
        simp only [upd_same, List.mem_cons] at hm
        rcases hm with rfl | hm
        · exact p2
        · exact h.range u m hm
      · exact h.range u m (by simpa only [upd_other _ e] using hm)
    · by_cases e : u = t
      · subst e
        simp only [upd_same, List.mem_cons] at hm
        rcases hm with rfl | hm
        · exact upd_same _ _ _
        · by_cases e2 : m.toNat = n.toNat
          · have := h.holds u m hm
            rw [e2, hf] at this
            cases this
          · exact (upd_other _ e2 _).trans (h.holds u m hm)
      · have hm' : m ∈ s.held u := by simpa only [upd_other _ e] using hm
        by_cases e2 : m.toNat = n.toNat
        · have := h.holds u m hm'
          rw [e2, hf] at this
          cases this
        · exact (upd_other _ e2 _).trans (h.holds u m hm')
    · by_cases e2 : m = n.toNat
      · subst e2
        simp only [upd_same, Option.some.injEq] at hm
        subst hm
        have : ((n.toNat : Nat) : Int) = n := by omega
        simp only [upd_same, this, List.mem_cons, true_or]
      · have hm' : s.holder m = some u := by simpa only [upd_other _ e2] using hm
        have := h.back m u hm'
        by_cases e : u = t
        · subst e
          simp only [upd_same, List.mem_cons, this, or_true]
        · simpa only [upd_other _ e] using this
  · cases hst

theorem lock_step_unlock {e : Bool} {s s' : St} {t : Nat} {n : Int} {r : List Act} (h : LockInv e s)
    (hr : s.todo t = .unlock n :: r) (hst : stepUnlock s t n r = some s')
    (hk : n < s.numLocks) : LockInv e s' := by
  have hp := h.proper t
  rw [hr] at hp
  obtain ⟨p1, p2⟩ := hp
  have hne : s.held t ≠ [] := fun e => by rw [e] at p1; cases p1
  have q1 := h.ready t hne
  have hn := h.range t n p1
  have hh := h.holds t n p1
  simp only [stepUnlock] at hst
  rw [if_neg (by simp [q1]), if_neg (by omega), if_neg (by omega), if_pos hh] at hst
  cases hst
  refine ⟨h.fault, fun u => ?_, fun u hu => ?_, fun u => ?_, fun u m hm => ?_, fun u m hm => ?_,
    fun m u hm => ?_⟩
  · by_cases e : u = t
    · subst e
      simpa only [upd_same] using p2
    · simpa only [upd_other _ e] using h.proper u
  · exact q1
  · by_cases e : u = t
    · subst e
      simpa only [upd_same] using (h.nodup u).erase n
    · simpa only [upd_other _ e] using h.nodup u
  · by_cases e : u = t
    · subst e
      simp only [upd_same] at hm
      exact h.range u m (List.mem_of_mem_erase hm)
    · exact h.range u m (by simpa only [upd_other _ e] using hm)
  · by_cases e : u = t
    · subst e
      simp only [upd_same] at hm
      rw [(h.nodup u).mem_erase_iff] at hm
      have : m.toNat ≠ n.toNat := fun e2 => hm.1 (toNat_inj (h.range u m hm.2) hn e2)
      exact (upd_other _ this _).trans (h.holds u m hm.2)
    · have hm' : m ∈ s.held u := by simpa only [upd_other _ e] using hm
      have : m.toNat ≠ n.toNat := by
        intro e2
        have := h.holds u m hm'
        rw [e2, hh] at this
        exact e (Option.some.inj this).symm
      exact (upd_other _ this _).trans (h.holds u m hm')
  · by_cases e2 : m = n.toNat
    · subst e2
      simp only [upd_same] at hm
      cases hm
    · have hm' : s.holder m = some u := by simpa only [upd_other _ e2] using hm
      have hb := h.back m u hm'
      by_cases e : u = t
      · subst e
        simp only [upd_same]
        rw [(h.nodup u).mem_erase_iff]
        exact ⟨by omega, hb⟩
      · simpa only [upd_other _ e] using hb

/-- Every lock that a thread has exists. -/
def HeldRange (s : St) : Prop := ∀ t, ∀ n ∈ s.held t, n < s.numLocks

theorem held_step {e : Bool} {s s' : St} {t : Nat} (h : LockInv e s) (hh : HeldRange s) (hst : step s t = some s') :
    HeldRange s' ∧ s'.numLocks = s.numLocks := by
  unfold step at hst
  rw [if_neg (by simp [h.fault])] at hst
  cases htd : s.todo t with
  | nil => rw [htd] at hst; cases hst
  | cons a r =>
    rw [htd] at hst
    have hp := h.proper t
    rw [htd] at hp
    cases a with
    | init =>
      simp only [stepInit] at hst
      split at hst
      · cases hst; exact ⟨hh, rfl⟩
      · split at hst
        · cases hst
        split at hst <;> cases hst <;> exact ⟨hh, rfl⟩
      · cases hst; exact ⟨hh, rfl⟩
    | lock n =>
      have mem : ∀ u, ∀ m ∈ upd s.held t (n :: s.held t) u, m < (s.numLocks : Int) := by
        intro u m hm
        by_cases e : u = t
        · subst e
          simp only [upd_same, List.mem_cons] at hm
          rcases hm with rfl | hm
          · exact hp.2.2.1
          · exact hh u m hm
        · exact hh u m (by simpa only [upd_other _ e] using hm)
      simp only [stepLock] at hst
      split_ifs at hst
      · cases hst; exact ⟨mem, rfl⟩
      · cases hst; exact ⟨hh, rfl⟩
      · cases hst; exact ⟨hh, rfl⟩
      · split at hst
        · cases hst; exact ⟨mem, rfl⟩
        · cases hst
    | unlock n =>
      have mem : ∀ u, ∀ m ∈ upd s.held t ((s.held t).erase n) u, m < (s.numLocks : Int) := by
        intro u m hm
        by_cases e : u = t
        · subst e
          simp only [upd_same] at hm
          exact hh u m (List.mem_of_mem_erase hm)
        · exact hh u m (by simpa only [upd_other _ e] using hm)
      simp only [stepUnlock] at hst
      split_ifs at hst
      · cases hst; exact ⟨mem, rfl⟩
      · cases hst; exact ⟨hh, rfl⟩
      · cases hst; exact ⟨hh, rfl⟩
      · cases hst; exact ⟨mem, rfl⟩
      · cases hst; exact ⟨hh, rfl⟩

/-- All invariants together. -/
def Inv (e : Bool) (s : St) : Prop := OnceInv s ∧ LockInv e s ∧ HeldRange s

theorem inv_step {e : Bool} (s : St) (t : Nat) (s' : St) (h : Inv e s) (hst : step s t = some s') :
    Inv e s' := by
  obtain ⟨h1, h2, h3⟩ := h
  refine ⟨once_step s t s' h1 hst, ?_, (held_step h2 h3 hst).1⟩
  unfold step at hst
  rw [if_neg (by simp [h2.fault])] at hst
  cases htd : s.todo t with
  | nil => rw [htd] at hst; cases hst
  | cons a r =>
    rw [htd] at hst
    cases a with
    | init => exact lock_step_init h1 h2 htd hst
    | lock n => exact lock_step_lock h2 htd hst
    | unlock n =>
      refine lock_step_unlock h2 htd hst (h3 t n ?_)
      have hp := h2.proper t
      rw [htd] at hp
      exact hp.1

theorem lock_start {e : Bool} {s : St} (hf : s.fault = .none)
    (hp : ∀ t, Proper s.numLocks [] (s.lockCallback && (s.inited t || e)) (s.todo t))
    (hh : ∀ t, s.held t = []) (ho : ∀ m, s.holder m = none) : LockInv e s where
  fault := hf
  proper t := by rw [hh]; exact hp t
  ready t ht := absurd (hh t) ht
  nodup t := by rw [hh]; exact List.nodup_nil
  range t n hn := by rw [hh] at hn; cases hn
  holds t n hn := by rw [hh] at hn; cases hn
  back m t hm := by rw [ho] at hm; cases hm

theorem inv_start {k : Nat} {todo : Nat → List Act} (h : ∀ t, Proper k [] false (todo t)) :
    Inv false (start k todo) :=
  ⟨once_start k todo, lock_start rfl h (fun _ => rfl) (fun _ => rfl), fun t n hn => nomatch hn⟩

/-- **C120, mutual exclusion**.  If every thread calls `OpenSSLInit()` before it uses a lock, then
under every schedule no two threads are inside the same lock, and there is neither a failed check nor
undefined behaviour. -/
theorem C120_exclusive {k : Nat} {todo : Nat → List Act} (h : ∀ t, Proper k [] false (todo t))
    (sched : List Nat) :
    let s := run (start k todo) sched
    s.fault = .none ∧ ∀ t u n, n ∈ s.held t → n ∈ s.held u → t = u := by
  intro s
  obtain ⟨-, h2, -⟩ : Inv false s := run_induct inv_step (inv_start h) sched
  refine ⟨h2.fault, fun t u n ht hu => ?_⟩
  have := h2.holds t n ht
  rw [h2.holds u n hu] at this
  exact (Option.some.inj this).symm

/-- Two threads that use the same lock, and one that uses two. -/
def exampleTodo : Nat → List Act
  | 0 => [.init, .lock 1, .unlock 1]
  | 1 => [.init, .init, .lock 0, .lock 1, .unlock 1, .unlock 0]
  | 2 => [.init, .lock 1, .unlock 1]
  | _ => []

theorem exampleTodo_proper (t : Nat) : Proper 2 [] false (exampleTodo t) := by
  match t with
  | 0 => exact (by decide : Proper 2 [] false (exampleTodo 0))
  | 1 => exact (by decide : Proper 2 [] false (exampleTodo 1))
  | 2 => exact (by decide : Proper 2 [] false (exampleTodo 2))
  | n + 3 => exact (rfl : ([] : List Int) = [])

/-- In a schedule of the example, thread 2 waits for thread 0, and thread 1 has the other lock. -/
example :
    let s := run (start 2 exampleTodo) [0, 1, 2, 0, 0, 0, 0, 0, 2, 2, 1, 1, 1, 1, 2]
    s.held 0 = [1] ∧ s.held 1 = [0] ∧ s.held 2 = [] ∧ s.fault = .none ∧ s.loads = 1 ∧
      s.todo 2 = [.lock 1, .unlock 1] ∧ (step s 2).isNone := by decide

/-! ### Waiting -/

/-- **C120, waiting**.  Under every schedule of threads that call `OpenSSLInit()` first: a thread that
has something to do and cannot go on waits for the thread that is just initialising, which can go on,
or for a lock that another thread has. -/
theorem C120_waits {k : Nat} {todo : Nat → List Act} (h : ∀ t, Proper k [] false (todo t))
    (sched : List Nat) :
    let s := run (start k todo) sched
    ∀ t, s.todo t ≠ [] → step s t = none →
      (∃ r u pc, s.todo t = .init :: r ∧ s.once = .running u pc ∧ u ≠ t ∧ (step s u).isSome) ∨
      (∃ r n u, s.todo t = .lock n :: r ∧ n ∈ s.held u ∧ u ≠ t) := by
  intro s t ht hst
  obtain ⟨h1, h2, h3⟩ : Inv false s := run_induct inv_step (inv_start h) sched
  have hp := h2.proper t
  unfold step at hst
  rw [if_neg (by simp [h2.fault])] at hst
  cases htd : s.todo t with
  | nil => exact absurd htd ht
  | cons a r =>
    rw [htd] at hst hp
    cases a with
    | init =>
      left
      simp only [stepInit] at hst
      split at hst
      · cases hst
      · rename_i u pc ho
        unfold OnceInv at h1
        rw [ho] at h1
        obtain ⟨-, ⟨r', hr'⟩, -⟩ := h1
        split at hst
        · rename_i hu
          refine ⟨r, u, pc, rfl, ho, hu, ?_⟩
          unfold step
          rw [if_neg (by simp [h2.fault]), hr']
          simp only [stepInit, ho, ne_eq, not_true_eq_false, if_false]
          split <;> rfl
        · split at hst <;> cases hst
      · cases hst
    | lock n =>
      right
      obtain ⟨p1, p2, p3, p4, p5⟩ := hp
      rw [Bool.and_eq_true] at p1
      simp only [stepLock] at hst
      rw [if_neg (by simp [p1.1]), if_neg (by omega), if_neg (by omega)] at hst
      split at hst
      · cases hst
      · rename_i u hu
        have hb := h2.back _ u hu
        have e : ((n.toNat : Nat) : Int) = n := by omega
        rw [e] at hb
        refine ⟨r, n, u, rfl, hb, ?_⟩
        rintro rfl
        exact p4 hb
    | unlock n =>
      simp only [stepUnlock] at hst
      split_ifs at hst

/-- The order of the locks is kept. -/
def OrdInv (s : St) : Prop := ∀ t, Ordered (s.held t) (s.todo t)

theorem ord_step (s : St) (t : Nat) (s' : St) (h : OrdInv s) (hst : step s t = some s') : OrdInv s' := by
  have ht := h t
  unfold step at hst
  split at hst
  · cases hst
  cases htd : s.todo t with
  | nil => rw [htd] at hst; cases hst
  | cons a r =>
    rw [htd] at hst ht
    cases a with
    | init =>
      have fin : ∀ u, Ordered (s.held u) (upd s.todo t r u) := by
        intro u
        by_cases e : u = t
        · subst e
          rw [upd_same]
          exact ht
        · simpa only [upd_other _ e] using h u
      simp only [stepInit] at hst
      split at hst
      · cases hst; exact h
      · split at hst
        · cases hst
        split at hst <;> cases hst
        · exact h
        · exact h
        · exact h
        · exact fin
      · cases hst; exact fin
    | lock n =>
      have fin : ∀ u, Ordered (upd s.held t (n :: s.held t) u) (upd s.todo t r u) := by
        intro u
        by_cases e : u = t
        · subst e
          simpa only [upd_same] using ht.2
        · simpa only [upd_other _ e] using h u
      simp only [stepLock] at hst
      split_ifs at hst
      · cases hst; exact fin
      · cases hst; exact h
      · cases hst; exact h
      · split at hst
        · cases hst; exact fin
        · cases hst
    | unlock n =>
      have fin : ∀ u, Ordered (upd s.held t ((s.held t).erase n) u) (upd s.todo t r u) := by
        intro u
        by_cases e : u = t
        · subst e
          rw [upd_same, upd_same]
          exact ht
        · simpa only [upd_other _ e] using h u
      simp only [stepUnlock] at hst
      split_ifs at hst
      · cases hst; exact fin
      · cases hst; exact h
      · cases hst; exact h
      · cases hst; exact fin
      · cases hst; exact h

theorem numLocks_run {k : Nat} {todo : Nat → List Act} (h : ∀ t, Proper k [] false (todo t))
    (sched : List Nat) : (run (start k todo) sched).numLocks = k :=
  (run_induct (P := fun s => Inv false s ∧ s.numLocks = k)
    (fun s t s' hs hst => ⟨inv_step s t s' hs.1 hst, (held_step hs.1.2.1 hs.1.2.2 hst).2.trans hs.2⟩)
    ⟨inv_start h, rfl⟩ sched).2

/-- **C120, no deadlock**.  If moreover every thread takes its locks in increasing order, then, as long
as any thread has something to do, some thread can go on. -/
theorem C120_no_deadlock {k : Nat} {todo : Nat → List Act} (h : ∀ t, Proper k [] false (todo t))
    (ho : ∀ t, Ordered [] (todo t)) (sched : List Nat) :
    let s := run (start k todo) sched
    (∃ t, s.todo t ≠ []) → ∃ t, (step s t).isSome := by
  intro s ⟨t, ht⟩
  have hinv : Inv false s := run_induct inv_step (inv_start h) sched
  have hord : OrdInv s := run_induct ord_step (s := start k todo) ho sched
  have hw := C120_waits h sched
  change ∀ t, s.todo t ≠ [] → step s t = none → _ at hw
  by_contra hno
  rw [not_exists] at hno
  have hnone : ∀ t, step s t = none := fun t => by simpa using hno t
  -- whoever waits, waits for a lock; its holder waits for a higher one
  have up : ∀ d : Nat, ∀ t n, n ∈ s.held t → (s.numLocks : Int) - n ≤ d → False := by
    intro d
    induction d with
    | zero =>
      intro t n hn hd
      have := hinv.2.2 t n hn
      omega
    | succ d ih =>
      intro t n hn hd
      have hne : s.todo t ≠ [] := by
        intro e
        have hp := hinv.2.1.proper t
        rw [e] at hp
        have : s.held t = [] := hp
        rw [this] at hn
        cases hn
      rcases hw t hne (hnone t) with ⟨r, u, pc, -, -, -, hs⟩ | ⟨r, m, u, htd, hm, -⟩
      · rw [hnone u] at hs
        cases hs
      · have := hord t
        rw [htd] at this
        have hlt := this.1 n hn
        exact ih u m hm (by push_cast at hd; omega)
  rcases hw t ht (hnone t) with ⟨r, u, pc, -, -, -, hs⟩ | ⟨r, m, u, htd, hm, -⟩
  · rw [hnone u] at hs
    cases hs
  · exact up ((s.numLocks : Int) - m).toNat u m hm (by omega)

/-- The example's threads take their locks in increasing order. -/
example : ∀ t, Ordered [] (exampleTodo t) := by
  intro t
  match t with
  | 0 => simp [exampleTodo, Ordered]
  | 1 => simp [exampleTodo, Ordered]
  | 2 => simp [exampleTodo, Ordered]
  | n + 3 => simp [exampleTodo, Ordered]

/-! ### The constructor of `Context` -/

theorem proper_init_first {k : Nat} {before after : List Act} (hb : before = [])
    (ha : Proper k [] true after) : Proper k [] false (contextConstructor before after) := by
  subst hb
  exact ha

/-- **C120, contexts, what holds**.  If the functions that initialise the members of a `Context` take no
lock, then any number of threads can make contexts and use the library afterwards, at the same time.
Missing: the case that they do take locks (`C120_context_fails`). -/
theorem C120_context_partial {k : Nat} {before after : Nat → List Act} (hb : ∀ t, before t = [])
    (ha : ∀ t, Proper k [] true (after t)) (sched : List Nat) :
    let s := run (start k (fun t => contextConstructor (before t) (after t))) sched
    s.fault = .none ∧ ∀ t u n, n ∈ s.held t → n ∈ s.held u → t = u :=
  C120_exclusive (fun t => proper_init_first (hb t) (ha t)) sched

/-- Contexts made by all threads, each using lock 0 afterwards. -/
example : ∀ t : Nat, Proper 1 [] true ((fun _ => [.lock 0, .unlock 0] : Nat → List Act) t) :=
  fun _ => (by decide : Proper 1 [] true [.lock 0, .unlock 0])

/-- **C120 fails for contexts made at the same time**: the constructor uses the library before it calls
`OpenSSLInit()`.  With two threads that make a context, if an initialiser of a member takes a lock
once, both threads can be inside the lock, and a thread can unlock a mutex that it has not locked
(undefined behaviour). -/
theorem C120_context_fails :
    let todo : Nat → List Act := fun t => if t < 2 then contextConstructor [.lock 0, .unlock 0] [] else []
    (∃ sched, let s := run (start 1 todo) sched; s.held 0 = [0] ∧ s.held 1 = [0]) ∧
      (∃ sched, (run (start 1 todo) sched).fault = .ub) := by
  refine ⟨⟨[0, 1], by decide⟩, ⟨[0, 1, 1, 1, 1, 1, 1, 1, 0], by decide⟩⟩

/-- **C120, early initialisation**.  If one thread calls `OpenSSLInit()` and it returns before another
thread runs, then all threads are safe, in whatever order they call `OpenSSLInit()` and use
locks. -/
theorem C120_early {k : Nat} {todo : Nat → List Act} {r : List Act} (h0 : todo 0 = .init :: r)
    (h : ∀ t, Proper k [] true (todo t)) (sched : List Nat) :
    let s := run (start k todo) ([0, 0, 0, 0, 0] ++ sched)
    s.fault = .none ∧ ∀ t u n, n ∈ s.held t → n ∈ s.held u → t = u := by
  intro s
  have hrun : s = run (run (start k todo) [0, 0, 0, 0, 0]) sched := run_append _ _ _
  have h5 : run (start k todo) [0, 0, 0, 0, 0] =
      { start k todo with
        once := .done, loads := 1, idCallback := true, lockCallback := true
        todo := upd todo 0 r, inited := upd (fun _ => false) 0 true } := by
    simp [run, step, start, stepInit, h0]
  have hi : Inv true s := by
    rw [hrun]
    refine run_induct inv_step ?_ sched
    rw [h5]
    refine ⟨⟨rfl, rfl, rfl⟩, lock_start rfl (fun t => ?_) (fun _ => rfl) (fun _ => rfl),
      fun t n hn => nomatch hn⟩
    simp only [Bool.or_true, Bool.and_true]
    by_cases e : t = 0
    · subst e
      have := h 0
      rw [h0] at this
      rw [upd_same]
      exact this
    · rw [upd_other _ e]
      exact h t
  refine ⟨hi.2.1.fault, fun t u n ht hu => ?_⟩
  have := hi.2.1.holds t n ht
  rw [hi.2.1.holds u n hu] at this
  exact (Option.some.inj this).symm

/-- The other threads need not call `OpenSSLInit()`. -/
example : ∀ t : Nat, Proper 1 [] true ((fun t => if t = 0 then [.init] else [.lock 0, .unlock 0]) t) := by
  intro t
  by_cases h : t = 0
  · rw [h]; exact (by decide : Proper 1 [] true [.init])
  · simp only [if_neg h]; exact (by decide : Proper 1 [] true [.lock 0, .unlock 0])

/-- **C120 fails for lock numbers out of range**: a negative number ends the program by a failed check,
but a number that is too large reads past the end of the list of mutexes. -/
theorem C120_range_fails (k : Nat) :
    (run (start k (fun t => if t = 0 then [.init, .lock (-1)] else [])) [0, 0, 0, 0, 0, 0]).fault =
      .crash ∧
    (run (start k (fun t => if t = 0 then [.init, .lock k] else [])) [0, 0, 0, 0, 0, 0]).fault =
      .ub := by
  constructor
  · simp [run, step, start, stepInit, stepLock, upd]
  · have hk : ¬ (k : Int) < 0 := by omega
    simp [run, step, start, stepInit, stepLock, upd, hk]

end PJC.Ossl
