import Verif.Lemmas.Concurrent
import Verif.Props.ProtocolHostile
import Verif.Props.ProtocolState
/-
C96, C97: the server program under every schedule of concurrent requests.
-/
set_option linter.unusedSectionVars false
namespace PJC.Conc
open PJC.Protocol PJC.Props

variable {G : Type} [AddCommGroup G] [DecidableEq G]

/-! ### C96: data races -/

theorem Sys.run_append (S : Sys G) (a b : List Who) : S.run (a ++ b) = (S.run a).run b := by
  simp [Sys.run]

theorem Sys.run_concat (S : Sys G) (a : List Who) (w : Who) :
    S.run (a ++ [w]) = (S.run a).step w := by
  simp [Sys.run]

/-- An invariant of the program holds under every schedule. -/
theorem Sys.run_induct {P : Sys G → Prop} (hs : ∀ S w, P S → P (S.step w)) :
    ∀ (sched : List Who) (S : Sys G), P S → P (S.run sched)
  | [], _, h => h
  | w :: ws, S, h => Sys.run_induct hs ws (S.step w) (hs S w h)

/-- A step writes `protocol_finished_` only at its one assignment. -/
theorem Thread.step_finished {M : Mem G} {t : Thread G} (h : M.finished = false)
    (h' : (t.step M).1.finished = true) : ∃ r, t.pc = .mark r := by
  obtain ⟨rnd, msg, pc⟩ := t
  cases pc with
  | mark r => exact ⟨r, rfl⟩
  | entry =>
    simp only [Thread.step, h] at h'
    cases msg <;> simp [h] at h'
  | startCheck =>
    simp only [Thread.step] at h'
    split at h'
    · simp [h] at h'
    · split at h' <;> simp [h] at h'
  | store K => simp [Thread.step, Mem.store, h] at h'
  | encLoad todo acc => cases todo <;> simp [Thread.step, h] at h'
  | encUse p a todo acc =>
    simp only [Thread.step] at h'
    split at h'
    · simp [h] at h'
    · split at h' <;> simp [h] at h'
  | roundCheck m =>
    simp only [Thread.step] at h'
    split at h' <;> simp [h] at h'
  | paillier m =>
    simp only [Thread.step] at h'
    split at h' <;> simp [h] at h'
  | reLoad m pk todo acc => cases todo <;> simp [Thread.step, h] at h'
  | reUse m pk p e todo acc =>
    simp only [Thread.step] at h'
    split at h'
    · simp [h] at h'
    · split at h' <;> simp [h] at h'
  | total m pk acc =>
    simp only [Thread.step] at h'
    split at h'
    · split at h' <;> simp [h] at h'
    · simp [h] at h'
  | send r => simp [Thread.step, h] at h'
  | done s r => simp [Thread.step, h] at h'

/-- The main thread stops polling only when it has read `true`. -/
theorem polling_inv (cfg : ExpCfg) (curve : Res (EcGroup G)) (inputs : List Bytes)
    (calls : List (ServerRand × ClientMsg)) (sched : List Who) :
    ((Sys.init cfg curve inputs calls).run sched).polling = false →
      ((Sys.init cfg curve inputs calls).run sched).mem.finished = true := by
  refine Sys.run_induct (P := fun S => S.polling = false → S.mem.finished = true) ?_ sched _
    (by simp [Sys.init])
  intro S w h
  unfold Sys.step
  split
  · exact h
  cases w with
  | main =>
    intro hp
    simp only [Bool.and_eq_false_iff, Bool.not_eq_false'] at hp
    exact hp.elim h id
  | call i =>
    dsimp only
    cases ht : S.threads[i]? with
    | none => exact h
    | some t =>
      intro hp
      have hf := h hp
      obtain ⟨rnd, msg, pc⟩ := t
      show (Thread.step S.mem _).1.finished = true
      cases pc with
      | mark r => rfl
      | entry => simp [Thread.step, hf]
      | startCheck =>
        simp only [Thread.step]
        split
        · exact hf
        · split <;> exact hf
      | store K => simp [Thread.step, Mem.store, hf]
      | encLoad todo acc => cases todo <;> simp [Thread.step, hf]
      | encUse p a todo acc =>
        simp only [Thread.step]
        split
        · exact hf
        · split <;> exact hf
      | roundCheck m =>
        simp only [Thread.step]
        split <;> exact hf
      | paillier m =>
        simp only [Thread.step]
        split <;> exact hf
      | reLoad m pk todo acc => cases todo <;> simp [Thread.step, hf]
      | reUse m pk p e todo acc =>
        simp only [Thread.step]
        split
        · exact hf
        · split <;> exact hf
      | total m pk acc =>
        simp only [Thread.step]
        split
        · split <;> exact hf
        · exact hf
      | send r => simp [Thread.step, hf]
      | done s r => simp [Thread.step, hf]

/-- **C96**, the property: no schedule of any requests has a data race. -/
def C96Statement (G : Type) [AddCommGroup G] [DecidableEq G] : Prop :=
  ∀ (cfg : ExpCfg) (curve : Res (EcGroup G)) (inputs : List Bytes)
    (calls : List (ServerRand × ClientMsg)) (sched : List Who),
    ¬ ((Sys.init cfg curve inputs calls).run sched).Racy

/-- **C96** is false in the strongest way: *every* run in which the protocol completes,
whatever the requests and the schedule, has a data race.  The main thread reads
`protocol_finished_` in its waiting loop while a request thread writes it. -/
theorem C96_every_completed_run_races (cfg : ExpCfg) (curve : Res (EcGroup G))
    (inputs : List Bytes) (calls : List (ServerRand × ClientMsg)) (sched : List Who)
    (h : ((Sys.init cfg curve inputs calls).run sched).mem.finished = true) :
    ∃ k < sched.length, ((Sys.init cfg curve inputs calls).run (sched.take k)).Racy := by
  induction sched using List.reverseRecOn with
  | nil => simp [Sys.run, Sys.init, Mem.init] at h
  | append_singleton ws w ih =>
    set S := (Sys.init cfg curve inputs calls).run ws with hS
    by_cases hf : S.mem.finished = true
    · obtain ⟨k, hk, hr⟩ := ih hf
      refine ⟨k, by simp; omega, ?_⟩
      rwa [List.take_append_of_le_length (by omega)]
    · have hf' : S.mem.finished = false := by simpa using hf
      refine ⟨ws.length, by simp, ?_⟩
      rw [List.take_left' rfl, ← hS]
      have hpoll : S.polling = true := by
        by_contra hp
        exact hf (polling_inv cfg curve inputs calls ws (by simpa using hp))
      rw [Sys.run_concat, ← hS] at h
      unfold Sys.step at h
      split at h
      · exact absurd h hf
      rename_i hfatal
      have hfatal' : S.threads.any Thread.fatal = false := by simpa using hfatal
      cases w with
      | main => exact absurd h hf
      | call i =>
        dsimp only at h
        cases ht : S.threads[i]? with
        | none => rw [ht] at h; exact absurd h hf
        | some t =>
          rw [ht] at h
          obtain ⟨r, hr⟩ := Thread.step_finished (t := t) hf' h
          refine ⟨hfatal', .main, .call i, by simp, readOf .finished, ?_, writeOf .finished, ?_, rfl,
            .inr rfl⟩
          · simp [Sys.next, hpoll]
          · simp [Sys.next, ht, hr, Pc.accesses]

/-! ### C97: replies -/

/-- What a call has returned, if it has. -/
def Sys.result (S : Sys G) (i : Nat) : Option (List ServerMsg × Res Unit) :=
  (S.threads[i]?).bind fun t => t.pc.result

/-- A request as a call of the sequential history (the RPC adapter's sink takes the first
message, C10). -/
def asCall (c : ServerRand × ClientMsg) : ServerCall := ⟨c.1, fun _ => .ok (), c.2⟩

/-- The replies are those of a sequential history: there is an order of the calls that have
returned such that the one-at-a-time server of `Server.handle` gives each call the
messages and the status it got. -/
def Sequential (s₀ : Server G) (calls : List (ServerRand × ClientMsg)) (S : Sys G) : Prop :=
  ∃ order : List Nat, order.Nodup ∧
    (∀ i, i ∈ order ↔ ∃ r, S.result i = some r) ∧
    ∃ cs : List (ServerRand × ClientMsg), order.map (fun i => calls[i]?) = cs.map some ∧
      order.map S.result = (serverTrace s₀ (cs.map asCall)).map fun o => some (o.sent, o.status)

/-- **C97**, the property: under every schedule the replies are those of a sequential
history. -/
def C97Statement (G : Type) [AddCommGroup G] [DecidableEq G] : Prop :=
  ∀ (cfg : ExpCfg) (curve : Res (EcGroup G)) (inputs : List Bytes)
    (calls : List (ServerRand × ClientMsg)) (sched : List Who),
    Sequential (Server.init cfg curve inputs) calls ((Sys.init cfg curve inputs calls).run sched)

/-- Calls do not overlap: whenever a call takes a step, every other call has not begun or
is over. -/
def Serial : Sys G → List Who → Prop
  | _, [] => True
  | S, w :: ws =>
    (∀ i, w = .call i → ∀ j t, j ≠ i → S.threads[j]? = some t →
      t.pc = .entry ∨ ∃ r, t.pc.result = some r) ∧ Serial (S.step w) ws

/-- The object after a sequential history without abort. -/
def serverAfter : Server G → List ServerCall → Server G
  | s, [] => s
  | s, c :: cs => serverAfter (s.handle c.rnd c.sink c.msg).state cs

def Fatal : Res Unit → Prop
  | .crash => True
  | .ub => True
  | _ => False

theorem serverTrace_concat (s : Server G) (cs : List ServerCall) (c : ServerCall)
    (h : ∀ o ∈ serverTrace s cs, ¬ Fatal o.status) :
    serverTrace s (cs ++ [c]) = serverTrace s cs ++
      [(serverAfter s cs).handle c.rnd c.sink c.msg] := by
  induction cs generalizing s with
  | nil =>
    simp only [List.nil_append, serverTrace, serverAfter]
    split <;> rfl
  | cons d ds ih =>
    have h1 := h
    simp only [serverTrace] at h1
    simp only [List.cons_append, serverTrace, serverAfter]
    split
    · rename_i hd
      rw [hd] at h1
      exact absurd (show Fatal _ by rw [hd]; trivial) (h1 _ List.mem_cons_self)
    · rename_i hd
      rw [hd] at h1
      exact absurd (show Fatal _ by rw [hd]; trivial) (h1 _ List.mem_cons_self)
    · rename_i hc hu
      rw [ih]
      · rfl
      · intro o ho
        refine h1 o ?_
        split
        · exact absurd (by assumption) hc
        · exact absurd (by assumption) hu
        · exact List.mem_cons_of_mem _ ho

theorem repr_init (cfg : ExpCfg) (curve : Res (EcGroup G)) (inputs : List Bytes) :
    Repr (Mem.init cfg curve inputs) (Server.init cfg curve inputs) :=
  ⟨rfl, rfl, rfl, rfl, rfl, by simp [Mem.init, Server.init], rfl⟩

theorem step_same (M : Mem G) (t : Thread G) :
    (t.step M).2.rnd = t.rnd ∧ (t.step M).2.msg = t.msg := by
  obtain ⟨rnd, msg, pc⟩ := t
  cases pc with
  | entry =>
    simp only [Thread.step]
    split
    · exact ⟨rfl, rfl⟩
    · cases msg <;> exact ⟨rfl, rfl⟩
  | startCheck =>
    simp only [Thread.step]
    split
    · exact ⟨rfl, rfl⟩
    · split <;> exact ⟨rfl, rfl⟩
  | store K => exact ⟨rfl, rfl⟩
  | encLoad todo acc => cases todo <;> exact ⟨rfl, rfl⟩
  | encUse p a todo acc =>
    simp only [Thread.step]
    split
    · exact ⟨rfl, rfl⟩
    · split <;> exact ⟨rfl, rfl⟩
  | roundCheck m =>
    simp only [Thread.step]
    split <;> exact ⟨rfl, rfl⟩
  | paillier m =>
    simp only [Thread.step]
    split <;> exact ⟨rfl, rfl⟩
  | reLoad m pk todo acc => cases todo <;> exact ⟨rfl, rfl⟩
  | reUse m pk p e todo acc =>
    simp only [Thread.step]
    split
    · exact ⟨rfl, rfl⟩
    · split <;> exact ⟨rfl, rfl⟩
  | total m pk acc =>
    simp only [Thread.step]
    split
    · split <;> exact ⟨rfl, rfl⟩
    · exact ⟨rfl, rfl⟩
  | mark r => exact ⟨rfl, rfl⟩
  | send r => exact ⟨rfl, rfl⟩
  | done s r => exact ⟨rfl, rfl⟩

theorem Pc.failed_ne {α : Type} (r : Res α) : (Pc.failed r : Pc G) ≠ .entry := by
  cases r <;> simp [Pc.failed]

/-- A step never leads back to the entry. -/
theorem step_ne_entry (M : Mem G) (u : Thread G) : (u.step M).2.pc ≠ .entry := by
  obtain ⟨rnd, msg, pc⟩ := u
  cases pc with
  | entry =>
    simp only [Thread.step]
    split
    · simp
    · cases msg <;> simp
  | startCheck =>
    simp only [Thread.step]
    split
    · simp
    · split
      · simp
      · exact Pc.failed_ne _
  | store K => simp [Thread.step]
  | encLoad todo acc => cases todo <;> simp [Thread.step]
  | encUse p a todo acc =>
    simp only [Thread.step]
    split
    · simp
    · split
      · simp
      · exact Pc.failed_ne _
  | roundCheck m =>
    simp only [Thread.step]
    split <;> simp
  | paillier m =>
    simp only [Thread.step]
    split
    · simp
    · exact Pc.failed_ne _
  | reLoad m pk todo acc => cases todo <;> simp [Thread.step]
  | reUse m pk p e todo acc =>
    simp only [Thread.step]
    split
    · simp
    · split
      · simp
      · exact Pc.failed_ne _
  | total m pk acc =>
    simp only [Thread.step]
    split
    · split
      · simp
      · exact Pc.failed_ne _
    · exact Pc.failed_ne _
  | mark r => simp [Thread.step]
  | send r => simp [Thread.step]
  | done s r => simp [Thread.step]

/-- What holds between steps of a serial schedule: a sequential history of the calls that
are over, and at most one call under way, which so far ran alone. -/
structure SerialInv (s₀ : Server G) (calls : List (ServerRand × ClientMsg)) (S : Sys G)
    (order : List Nat) (cs : List (ServerRand × ClientMsg)) : Prop where
  len : S.threads.length = calls.length
  same : ∀ (i : Nat) (t : Thread G), S.threads[i]? = some t → calls[i]? = some (t.rnd, t.msg)
  nodup : order.Nodup
  over : ∀ i, i ∈ order ↔ ∃ r, S.result i = some r
  pick : order.map (fun i => calls[i]?) = cs.map some
  replies : order.map S.result =
    (serverTrace s₀ (cs.map asCall)).map fun o => some (o.sent, o.status)
  now : S.threads.any Thread.fatal = false → ∃ M₀, Repr M₀ (serverAfter s₀ (cs.map asCall)) ∧
    ((S.mem = M₀ ∧ ∀ (i : Nat) (t : Thread G), S.threads[i]? = some t →
      t.pc = .entry ∨ ∃ r, t.pc.result = some r) ∨
    ∃ (i : Nat) (t : Thread G), S.threads[i]? = some t ∧ t.pc ≠ .entry ∧ t.pc.result = none ∧
      Leads (M₀, ⟨t.rnd, t.msg, .entry⟩) (S.mem, t) ∧
      ∀ (j : Nat) (u : Thread G), j ≠ i → S.threads[j]? = some u →
        u.pc = .entry ∨ ∃ r, u.pc.result = some r)

theorem Leads.step_right {x : Mem G × Thread G} {M : Mem G} {t : Thread G}
    (h : Leads x (M, t)) : Leads x (t.step M) := by
  obtain ⟨n, hn⟩ := h
  exact ⟨n + 1, by rw [alone_add, hn]; rfl⟩

theorem serverAfter_concat (s : Server G) (cs : List ServerCall) (c : ServerCall) :
    serverAfter s (cs ++ [c]) = ((serverAfter s cs).handle c.rnd c.sink c.msg).state := by
  induction cs generalizing s with
  | nil => rfl
  | cons d ds ih => exact ih _

theorem fatal_iff (t : Thread G) : t.fatal = true ↔ ∃ r, t.pc.result = some r ∧ Fatal r.2 := by
  obtain ⟨rnd, msg, pc⟩ := t
  cases pc <;> simp [Thread.fatal, Pc.result]
  rename_i s r
  cases r <;> simp [Fatal]

/-- The thread that ends extends the history by one call. -/
theorem SerialInv.finish {s₀ : Server G} {calls : List (ServerRand × ClientMsg)} {S : Sys G}
    {order : List Nat} {cs : List (ServerRand × ClientMsg)} (h : SerialInv s₀ calls S order cs)
    (hnf : S.threads.any Thread.fatal = false) {i : Nat} {t : Thread G}
    (ht : S.threads[i]? = some t) (hpc : t.pc.result = none) {M₀ : Mem G}
    (hM₀ : Repr M₀ (serverAfter s₀ (cs.map asCall)))
    (hl : Leads (M₀, ⟨t.rnd, t.msg, .entry⟩) (S.mem, t))
    (hothers : ∀ j u, j ≠ i → S.threads[j]? = some u → u.pc = .entry ∨ ∃ r, u.pc.result = some r) :
    ∃ order' cs', SerialInv s₀ calls (S.step (.call i)) order' cs' := by
  have hi : i < S.threads.length := (List.getElem?_eq_some_iff.1 ht).1
  have hstep : S.step (.call i) =
      { S with mem := (t.step S.mem).1, threads := S.threads.set i (t.step S.mem).2 } := by
    unfold Sys.step
    rw [if_neg (by simp [hnf])]
    simp only [ht]
  set M' := (t.step S.mem).1 with hM'
  set t' := (t.step S.mem).2 with ht'
  obtain ⟨e1, e2⟩ : t'.rnd = t.rnd ∧ t'.msg = t.msg := step_same S.mem t
  have hl' : Leads (M₀, ⟨t'.rnd, t'.msg, .entry⟩) (M', t') := by
    rw [e1, e2]; exact hl.step_right
  have hcall := h.same i t ht
  have get_i : (S.threads.set i t')[i]? = some t' := by
    rw [List.getElem?_set_self hi]
  have get_j : ∀ j, j ≠ i → (S.threads.set i t')[j]? = S.threads[j]? := fun j hj => by
    rw [List.getElem?_set_ne (Ne.symm hj)]
  have res_j : ∀ j, j ≠ i → Sys.result { S with mem := M', threads := S.threads.set i t' } j =
      S.result j := fun j hj => by
    simp only [Sys.result, get_j j hj]
  have res_i : Sys.result { S with mem := M', threads := S.threads.set i t' } i = t'.pc.result := by
    simp only [Sys.result, get_i, Option.bind_some]
  have hnot : i ∉ order := by
    intro hmem
    obtain ⟨r, hr⟩ := (h.over i).1 hmem
    rw [Sys.result, ht, Option.bind_some, hpc] at hr
    cases hr
  have hlen : (S.threads.set i t').length = calls.length := by
    rw [List.length_set, h.len]
  have hsame : ∀ (j : Nat) (u : Thread G), (S.threads.set i t')[j]? = some u →
      calls[j]? = some (u.rnd, u.msg) := by
    intro j u hu
    by_cases hj : j = i
    · subst hj
      rw [get_i] at hu
      cases hu
      rw [hcall, e1, e2]
    · rw [get_j j hj] at hu
      exact h.same j u hu
  have hmap : order.map (Sys.result { S with mem := M', threads := S.threads.set i t' }) =
      order.map S.result :=
    List.map_congr_left fun j hj => res_j j (fun e => hnot (e ▸ hj))
  have hothers' : ∀ (j : Nat) (u : Thread G), j ≠ i → (S.threads.set i t')[j]? = some u →
      u.pc = .entry ∨ ∃ r, u.pc.result = some r := by
    intro j u hj hu
    rw [get_j j hj] at hu
    exact hothers j u hj hu
  rw [hstep]
  cases hres : t'.pc.result with
  | none =>
    refine ⟨order, cs, hlen, hsame, h.nodup, ?_, h.pick, by rw [hmap]; exact h.replies, ?_⟩
    · intro j
      by_cases hj : j = i
      · subst hj
        rw [res_i, hres]
        simp [hnot]
      · rw [res_j j hj]; exact h.over j
    · intro _
      refine ⟨M₀, hM₀, .inr ⟨i, t', get_i, ?_, hres, hl', hothers'⟩⟩
      intro he
      exact step_ne_entry S.mem t he
  | some r =>
    obtain ⟨M'', hlead, hrep⟩ := alone_handle hM₀ t'.rnd t'.msg
    have huniq := Leads.unique hl' hlead hres rfl
    have hnofatal : ∀ o ∈ serverTrace s₀ (cs.map asCall), ¬ Fatal o.status := by
      intro o ho hfat
      have : some (o.sent, o.status) ∈ order.map S.result := by
        rw [h.replies]; exact List.mem_map_of_mem ho
      obtain ⟨j, -, hj⟩ := List.mem_map.1 this
      rw [Sys.result] at hj
      obtain ⟨u, hu, hr⟩ := Option.bind_eq_some_iff.1 hj
      have : u.fatal = true := (fatal_iff u).2 ⟨_, hr, hfat⟩
      have hm : u ∈ S.threads := List.mem_of_getElem? hu
      have : S.threads.any Thread.fatal = true := List.any_eq_true.2 ⟨u, hm, this⟩
      rw [hnf] at this; cases this
    set c : ServerRand × ClientMsg := (t'.rnd, t'.msg) with hc
    have hMeq : M' = M'' := congrArg Prod.fst huniq
    have hteq : t' = _ := congrArg Prod.snd huniq
    have hrr : r = (((serverAfter s₀ (cs.map asCall)).handle c.1 (fun _ => .ok ()) c.2).sent,
        ((serverAfter s₀ (cs.map asCall)).handle c.1 (fun _ => .ok ()) c.2).status) := by
      rw [hteq] at hres
      exact (Option.some.inj hres).symm
    refine ⟨order ++ [i], cs ++ [c], hlen, hsame, ?_, ?_, ?_, ?_, ?_⟩
    · rw [List.nodup_append]
      exact ⟨h.nodup, by simp, by
        intro a ha b hb e
        rw [List.mem_singleton] at hb
        exact hnot (hb ▸ e ▸ ha)⟩
    · intro j
      rw [List.mem_append, List.mem_singleton]
      by_cases hj : j = i
      · subst hj
        rw [res_i, hres]
        simp
      · rw [res_j j hj]
        simp only [hj, or_false]
        exact h.over j
    · rw [List.map_append, List.map_append, h.pick]
      simp only [List.map_cons, List.map_nil]
      rw [hcall, hc, e1, e2]
    · rw [List.map_append, List.map_append, List.map_cons, List.map_nil, List.map_cons,
        List.map_nil, serverTrace_concat s₀ _ _ hnofatal, List.map_append, hmap, h.replies]
      simp only [List.map_cons, List.map_nil, List.append_cancel_left_eq]
      rw [res_i, hres, hrr]
      rfl
    · intro _
      refine ⟨M', ?_, .inl ⟨rfl, ?_⟩⟩
      · rw [List.map_append, List.map_cons, List.map_nil, serverAfter_concat, hMeq]
        exact hrep
      · intro j u hu
        by_cases hj : j = i
        · subst hj
          rw [get_i] at hu
          cases hu
          exact .inr ⟨r, hres⟩
        · exact hothers' j u hj hu

theorem SerialInv.step {s₀ : Server G} {calls : List (ServerRand × ClientMsg)} {S : Sys G}
    {order : List Nat} {cs : List (ServerRand × ClientMsg)} (h : SerialInv s₀ calls S order cs)
    (w : Who) (hser : ∀ i, w = .call i → ∀ j t, j ≠ i → S.threads[j]? = some t →
      t.pc = .entry ∨ ∃ r, t.pc.result = some r) :
    ∃ order' cs', SerialInv s₀ calls (S.step w) order' cs' := by
  by_cases hnf : S.threads.any Thread.fatal = true
  · exact ⟨order, cs, by unfold Sys.step; rw [if_pos hnf]; exact h⟩
  have hnf' : S.threads.any Thread.fatal = false := by simpa using hnf
  cases w with
  | main =>
    refine ⟨order, cs, ?_⟩
    unfold Sys.step
    rw [if_neg hnf]
    exact ⟨h.len, h.same, h.nodup, h.over, h.pick, h.replies, h.now⟩
  | call i =>
    cases ht : S.threads[i]? with
    | none =>
      refine ⟨order, cs, ?_⟩
      unfold Sys.step
      rw [if_neg hnf]
      simp only [ht]
      exact h
    | some t =>
      have hothers := hser i rfl
      cases hres : t.pc.result with
      | some r =>
        refine ⟨order, cs, ?_⟩
        unfold Sys.step
        rw [if_neg hnf]
        simp only [ht, step_done hres]
        have hi : i < S.threads.length := (List.getElem?_eq_some_iff.1 ht).1
        have : S.threads.set i t = S.threads := by
          have e := (List.getElem?_eq_some_iff.1 ht).2
          rw [← e, List.set_getElem_self]
        rw [this]
        exact h
      | none =>
        obtain ⟨M₀, hM₀, hcase⟩ := h.now hnf'
        rcases hcase with ⟨hm, hall⟩ | ⟨k, u, hu, hne, hur, hl, -⟩
        · have hent : t.pc = .entry := by
            rcases hall i t ht with h1 | ⟨r, hr⟩
            · exact h1
            · rw [hres] at hr; cases hr
          refine h.finish hnf' ht hres hM₀ ?_ hothers
          rw [hm]
          obtain ⟨rnd, msg, pc⟩ := t
          simp only at hent
          subst hent
          exact .refl _
        · have hk : k = i := by
            by_contra hki
            rcases hothers k u hki hu with h1 | ⟨r, hr⟩
            · exact hne h1
            · rw [hur] at hr; cases hr
          subst hk
          rw [ht] at hu
          cases hu
          exact h.finish hnf' ht hres hM₀ hl hothers

theorem serialInv_run {s₀ : Server G} {calls : List (ServerRand × ClientMsg)} :
    ∀ (sched : List Who) (S : Sys G) (order : List Nat) (cs : List (ServerRand × ClientMsg)),
    SerialInv s₀ calls S order cs → Serial S sched →
      ∃ order' cs', SerialInv s₀ calls (S.run sched) order' cs'
  | [], _, order, cs, h, _ => ⟨order, cs, h⟩
  | w :: ws, S, order, cs, h, hs => by
    obtain ⟨o', c', h'⟩ := h.step w hs.1
    exact serialInv_run ws (S.step w) o' c' h' hs.2

theorem serial_inv (cfg : ExpCfg) (curve : Res (EcGroup G)) (inputs : List Bytes)
    (calls : List (ServerRand × ClientMsg)) (sched : List Who)
    (hs : Serial (Sys.init cfg curve inputs calls) sched) :
    ∃ order cs, SerialInv (Server.init cfg curve inputs) calls
      ((Sys.init cfg curve inputs calls).run sched) order cs :=
  serialInv_run (s₀ := Server.init cfg curve inputs) (calls := calls)
    sched (Sys.init cfg curve inputs calls) [] [] (by
      refine ⟨by simp [Sys.init], ?_, by simp, ?_, rfl, rfl, ?_⟩
      · intro i t ht
        simp only [Sys.init, List.getElem?_map, Option.map_eq_some_iff] at ht
        obtain ⟨c, hc, rfl⟩ := ht
        exact hc
      · intro i
        simp only [List.not_mem_nil, false_iff]
        rintro ⟨r, hr⟩
        obtain ⟨t, ht, hr⟩ := Option.bind_eq_some_iff.1 hr
        simp only [Sys.init, List.getElem?_map, Option.map_eq_some_iff] at ht
        obtain ⟨c, hc, rfl⟩ := ht
        cases hr
      · intro _
        refine ⟨_, repr_init cfg curve inputs, .inl ⟨rfl, ?_⟩⟩
        intro i t ht
        simp only [Sys.init, List.getElem?_map, Option.map_eq_some_iff] at ht
        obtain ⟨c, hc, rfl⟩ := ht
        exact .inl rfl) hs

/-- **C97**, the part that holds: if the calls do not overlap (whatever the main thread
does in between), the replies are those of a sequential history. -/
theorem C97_serial_partial (cfg : ExpCfg) (curve : Res (EcGroup G)) (inputs : List Bytes)
    (calls : List (ServerRand × ClientMsg)) (sched : List Who)
    (hs : Serial (Sys.init cfg curve inputs calls) sched) :
    Sequential (Server.init cfg curve inputs) calls
      ((Sys.init cfg curve inputs calls).run sched) := by
  obtain ⟨order, cs, h⟩ := serial_inv cfg curve inputs calls sched hs
  exact ⟨order, h.nodup, h.over, cs, h.pick, h.replies⟩

/-- **C96**, what is missing for it: if calls do not overlap, `protocol_finished_` is the
only location there is ever a race on (so an atomic flag would remove all of them). -/
theorem C96_serial_partial (cfg : ExpCfg) (curve : Res (EcGroup G)) (inputs : List Bytes)
    (calls : List (ServerRand × ClientMsg)) (sched : List Who)
    (hs : Serial (Sys.init cfg curve inputs calls) sched) (w₁ w₂ : Who) (hne : w₁ ≠ w₂)
    (a b : Access) (ha : a ∈ ((Sys.init cfg curve inputs calls).run sched).next w₁)
    (hb : b ∈ ((Sys.init cfg curve inputs calls).run sched).next w₂)
    (hnf : ((Sys.init cfg curve inputs calls).run sched).threads.any Thread.fatal = false)
    (hloc : a.loc = b.loc) : a.loc = .finished := by
  obtain ⟨order, cs, h⟩ := serial_inv cfg curve inputs calls sched hs
  set S := (Sys.init cfg curve inputs calls).run sched
  have quiet : ∀ (i : Nat) (x : Access), x ∈ S.next (.call i) →
      (∀ t, S.threads[i]? = some t → t.pc = .entry ∨ ∃ r, t.pc.result = some r) →
      x.loc = .finished := by
    intro i x hx hq
    unfold Sys.next at hx
    cases ht : S.threads[i]? with
    | none => simp [ht] at hx
    | some t =>
      simp only [ht] at hx
      rcases hq t ht with he | ⟨r, hr⟩
      · rw [he] at hx
        simp only [Pc.accesses, List.mem_singleton] at hx
        rw [hx]; rfl
      · obtain ⟨rnd, msg, pc⟩ := t
        cases pc <;> simp_all [Pc.result, Pc.accesses]
  have main : ∀ x : Access, x ∈ S.next .main → x.loc = .finished := by
    intro x hx
    unfold Sys.next at hx
    dsimp only at hx
    split at hx
    · rw [List.mem_singleton] at hx; rw [hx]; rfl
    · simp at hx
  cases w₁ with
  | main => exact main a ha
  | call i =>
    cases w₂ with
    | main => rw [hloc]; exact main b hb
    | call j =>
      obtain ⟨M₀, -, hcase⟩ := h.now hnf
      rcases hcase with ⟨-, hall⟩ | ⟨k, t, ht, -, -, -, hall⟩
      · exact quiet i a ha (hall i)
      · by_cases hik : i = k
        · subst hik
          rw [hloc]
          exact quiet j b hb (fun u hu => hall j u (fun e => hne (by rw [e])) hu)
        · exact quiet i a ha (fun u hu => hall i u hik hu)

/-! ### Any schedule, one start request -/

section OneStart
variable (cfg : ExpCfg) (curve : Res (EcGroup G)) (inputs : List Bytes)

/-- The memory after the cipher has been stored. -/
def started (K : EcCipher G) (b : Bool) : Mem G :=
  { (Mem.init cfg curve inputs).store K with finished := b }

/-- A call as it arrived. -/
def Thread.arrive (t : Thread G) : Thread G := { t with pc := .entry }

/-- What a call knows, in a memory reached with at most one start request. -/
def View (M : Mem G) (t : Thread G) : Prop :=
  match t.pc with
  | .entry => True
  | .startCheck => t.msg = .start
  | .store K => t.msg = .start ∧
      EcCipher.createWithNewKey curve .sha256 t.rnd.keyWord = .ok K ∧
      Leads (Mem.init cfg curve inputs, t.arrive) (Mem.init cfg curve inputs, t)
  | .encLoad _ _ => t.msg = .start ∧ ∃ K b, M = started cfg curve inputs K b ∧
      Leads (Mem.init cfg curve inputs, t.arrive) (started cfg curve inputs K false, t)
  | .encUse p _ _ _ => t.msg = .start ∧ p = some 0 ∧ ∃ K b, M = started cfg curve inputs K b ∧
      Leads (Mem.init cfg curve inputs, t.arrive) (started cfg curve inputs K false, t)
  | .roundCheck m => t.msg = .roundOne m
  | .paillier _ => ∃ K b, M = started cfg curve inputs K b ∧
      Leads (started cfg curve inputs K false, t.arrive) (started cfg curve inputs K false, t)
  | .reLoad _ _ _ _ => ∃ K b, M = started cfg curve inputs K b ∧
      Leads (started cfg curve inputs K false, t.arrive) (started cfg curve inputs K false, t)
  | .reUse _ _ p _ _ _ => p = some 0 ∧ ∃ K b, M = started cfg curve inputs K b ∧
      Leads (started cfg curve inputs K false, t.arrive) (started cfg curve inputs K false, t)
  | .total _ _ _ => ∃ K b, M = started cfg curve inputs K b ∧
      Leads (started cfg curve inputs K false, t.arrive) (started cfg curve inputs K false, t)
  | .mark _ => ∃ K b, M = started cfg curve inputs K b ∧
      Leads (started cfg curve inputs K false, t.arrive) (started cfg curve inputs K false, t)
  | _ => ∃ M₀ M₁, Leads (M₀, t.arrive) (M₁, t) ∧
      (M₀ = Mem.init cfg curve inputs ∨
        ∃ K b b', M₀ = started cfg curve inputs K b ∧ M = started cfg curve inputs K b')

variable {cfg curve inputs}

theorem started_ne_init {K : EcCipher G} {b : Bool} :
    Mem.init cfg curve inputs ≠ started cfg curve inputs K b := by
  intro h
  have := congrArg Mem.ptr h
  simp [Mem.init, started, Mem.store] at this

/-- How the memory can change under a step of another call. -/
def Moves (cfg : ExpCfg) (curve : Res (EcGroup G)) (inputs : List Bytes) (M M' : Mem G) : Prop :=
  M' = M ∨ (M = Mem.init cfg curve inputs ∧ ∃ K, M' = started cfg curve inputs K false) ∨
    ∃ K b, M = started cfg curve inputs K b ∧ M' = started cfg curve inputs K true

theorem View.mono {M M' : Mem G} {t : Thread G} (h : View cfg curve inputs M t)
    (hm : Moves cfg curve inputs M M') : View cfg curve inputs M' t := by
  rcases hm with rfl | ⟨rfl, K', rfl⟩ | ⟨K', b', rfl, rfl⟩
  · exact h
  · unfold View at h ⊢
    split at h
    · exact h
    · exact h
    · exact h
    · obtain ⟨-, K, b, e, -⟩ := h; exact absurd e started_ne_init
    · obtain ⟨-, -, K, b, e, -⟩ := h; exact absurd e started_ne_init
    · exact h
    · obtain ⟨K, b, e, -⟩ := h; exact absurd e started_ne_init
    · obtain ⟨K, b, e, -⟩ := h; exact absurd e started_ne_init
    · obtain ⟨-, K, b, e, -⟩ := h; exact absurd e started_ne_init
    · obtain ⟨K, b, e, -⟩ := h; exact absurd e started_ne_init
    · obtain ⟨K, b, e, -⟩ := h; exact absurd e started_ne_init
    · obtain ⟨M₀, M₁, hl, h0⟩ := h
      refine ⟨M₀, M₁, hl, .inl ?_⟩
      rcases h0 with h0 | ⟨K, b, b', -, e⟩
      · exact h0
      · exact absurd e started_ne_init
  · have key : ∀ {K : EcCipher G} {b : Bool},
        started cfg curve inputs K' b' = started cfg curve inputs K b → K = K' := by
      intro K b e
      have := congrArg Mem.heap e
      simp [started, Mem.store, Mem.init] at this
      exact this.symm
    unfold View at h ⊢
    split at h
    · exact h
    · exact h
    · exact h
    · obtain ⟨h1, K, b, e, hl⟩ := h
      have := key e; subst this
      exact ⟨h1, K, true, rfl, hl⟩
    · obtain ⟨h1, h2, K, b, e, hl⟩ := h
      have := key e; subst this
      exact ⟨h1, h2, K, true, rfl, hl⟩
    · exact h
    · obtain ⟨K, b, e, hl⟩ := h
      have := key e; subst this
      exact ⟨K, true, rfl, hl⟩
    · obtain ⟨K, b, e, hl⟩ := h
      have := key e; subst this
      exact ⟨K, true, rfl, hl⟩
    · obtain ⟨h1, K, b, e, hl⟩ := h
      have := key e; subst this
      exact ⟨h1, K, true, rfl, hl⟩
    · obtain ⟨K, b, e, hl⟩ := h
      have := key e; subst this
      exact ⟨K, true, rfl, hl⟩
    · obtain ⟨K, b, e, hl⟩ := h
      have := key e; subst this
      exact ⟨K, true, rfl, hl⟩
    · obtain ⟨M₀, M₁, hl, h0⟩ := h
      refine ⟨M₀, M₁, hl, ?_⟩
      rcases h0 with h0 | ⟨K, b, b'', e0, e⟩
      · exact .inl h0
      · have := key e; subst this
        exact .inr ⟨K, b, true, e0, rfl⟩

/-- The memory of a run with at most one start request. -/
def GoodMem (cfg : ExpCfg) (curve : Res (EcGroup G)) (inputs : List Bytes) (M : Mem G) : Prop :=
  M = Mem.init cfg curve inputs ∨ ∃ K b, M = started cfg curve inputs K b

theorem view_over {M M₀ M₁ : Mem G} {t : Thread G} {x : List ServerMsg} {r : Res Unit}
    (hpc : t.pc = .done x r) (hl : Leads (M₀, t.arrive) (M₁, t))
    (h0 : M₀ = Mem.init cfg curve inputs ∨
        ∃ K b b', M₀ = started cfg curve inputs K b ∧ M = started cfg curve inputs K b') :
    View cfg curve inputs M t := by
  unfold View
  rw [hpc]
  exact ⟨M₀, M₁, hl, h0⟩

theorem view_failed {α : Type} {M M₀ M₁ : Mem G} {rnd : ServerRand} {msg : ClientMsg} (r : Res α)
    (hl : Leads (M₀, ⟨rnd, msg, .entry⟩) (M₁, ⟨rnd, msg, .failed r⟩))
    (h0 : M₀ = Mem.init cfg curve inputs ∨
        ∃ K b b', M₀ = started cfg curve inputs K b ∧ M = started cfg curve inputs K b') :
    View cfg curve inputs M ⟨rnd, msg, .failed r⟩ := by
  cases r <;> exact view_over rfl hl h0

/-- One step of a call, in a run with at most one start request. -/
theorem View.step {M : Mem G} {t : Thread G} (hM : GoodMem cfg curve inputs M)
    (h : View cfg curve inputs M t)
    (hearly : t.msg = .start → (t.pc = .entry ∨ t.pc = .startCheck ∨ ∃ K, t.pc = .store K) →
      M = Mem.init cfg curve inputs) :
    Moves cfg curve inputs M (t.step M).1 ∧ View cfg curve inputs (t.step M).1 (t.step M).2 ∧
    ((t.step M).2.msg = .start → ((t.step M).2.pc = .entry ∨ (t.step M).2.pc = .startCheck ∨
      ∃ K, (t.step M).2.pc = .store K) → (t.step M).1 = Mem.init cfg curve inputs) := by
  obtain ⟨rnd, msg, pc⟩ := t
  cases pc with
  | entry =>
    rcases hM with rfl | ⟨K, b, rfl⟩
    · cases msg with
      | other =>
        refine ⟨.inl rfl, ?_, by simp [Thread.step, Mem.init]⟩
        exact view_over rfl (.step rfl (.refl _)) (.inl rfl)
      | empty =>
        refine ⟨.inl rfl, ?_, by simp [Thread.step, Mem.init]⟩
        exact view_over rfl (.step rfl (.refl _)) (.inl rfl)
      | start => exact ⟨.inl rfl, rfl, fun _ _ => rfl⟩
      | roundOne m => exact ⟨.inl rfl, rfl, fun _ _ => rfl⟩
    · cases b with
      | true =>
        refine ⟨.inl rfl, ?_, fun h1 h2 => hearly h1 (.inl rfl)⟩
        exact view_over rfl (.step rfl (.refl _)) (.inr ⟨K, true, true, rfl, rfl⟩)
      | false =>
        cases msg with
        | other =>
          refine ⟨.inl rfl, ?_, by simp [Thread.step, started]⟩
          exact view_over rfl (.step rfl (.refl _)) (.inr ⟨K, false, false, rfl, rfl⟩)
        | empty =>
          refine ⟨.inl rfl, ?_, by simp [Thread.step, started]⟩
          exact view_over rfl (.step rfl (.refl _)) (.inr ⟨K, false, false, rfl, rfl⟩)
        | start => exact absurd (hearly rfl (.inl rfl)).symm started_ne_init
        | roundOne m => exact ⟨.inl rfl, rfl, by simp [Thread.step, started]⟩
  | startCheck =>
    have hmsg : msg = .start := h
    subst hmsg
    have hM' := hearly rfl (.inr (.inl rfl))
    subst hM'
    have e : (⟨rnd, .start, .startCheck⟩ : Thread G).step (Mem.init cfg curve inputs) =
        match EcCipher.createWithNewKey curve .sha256 rnd.keyWord with
        | .ok K => (Mem.init cfg curve inputs, ⟨rnd, .start, .store K⟩)
        | r => (Mem.init cfg curve inputs, ⟨rnd, .start, .failed r⟩) := rfl
    have hl : Leads (Mem.init cfg curve inputs, ⟨rnd, .start, .entry⟩)
        ((⟨rnd, .start, .startCheck⟩ : Thread G).step (Mem.init cfg curve inputs)) :=
      .step rfl (.step rfl (.refl _))
    rw [e] at hl ⊢
    cases hK : EcCipher.createWithNewKey curve .sha256 rnd.keyWord with
    | ok K =>
      rw [hK] at hl
      exact ⟨.inl rfl, ⟨rfl, hK, hl⟩, fun _ _ => rfl⟩
    | err c => rw [hK] at hl; exact ⟨.inl rfl, view_failed _ hl (.inl rfl), fun _ _ => rfl⟩
    | crash => rw [hK] at hl; exact ⟨.inl rfl, view_failed _ hl (.inl rfl), fun _ _ => rfl⟩
    | ub => rw [hK] at hl; exact ⟨.inl rfl, view_failed _ hl (.inl rfl), fun _ _ => rfl⟩
  | store K =>
    obtain ⟨hmsg, hK, hl⟩ := h
    have hM' := hearly hmsg (.inr (.inr ⟨K, rfl⟩))
    subst hM'
    refine ⟨.inr (.inl ⟨rfl, K, rfl⟩), ⟨hmsg, K, false, rfl, hl.step_right⟩, ?_⟩
    intro _ h2
    simp [Thread.step] at h2
  | encLoad todo acc =>
    obtain ⟨hmsg, K, b, rfl, hl⟩ := h
    cases todo with
    | nil =>
      refine ⟨.inl rfl, ⟨_, _, hl.step_right, .inl rfl⟩, ?_⟩
      intro _ h2; simp [Thread.step] at h2
    | cons a todo =>
      refine ⟨.inl rfl, ⟨hmsg, rfl, K, b, rfl, hl.step_right⟩, ?_⟩
      intro _ h2; simp [Thread.step] at h2
  | encUse p a todo acc =>
    obtain ⟨hmsg, rfl, K, b, rfl, hl⟩ := h
    have e : ∀ b', (⟨rnd, msg, .encUse (some 0) a todo acc⟩ : Thread G).step
        (started cfg curve inputs K b') =
        match K.encrypt a with
        | .ok x => (started cfg curve inputs K b', ⟨rnd, msg, .encLoad todo (acc ++ [⟨x, []⟩])⟩)
        | r => (started cfg curve inputs K b', ⟨rnd, msg, .failed r⟩) := fun _ => rfl
    have hl' := hl.step_right
    rw [e] at hl' ⊢
    cases hx : K.encrypt a with
    | ok x =>
      rw [hx] at hl'
      refine ⟨.inl rfl, ⟨hmsg, K, b, rfl, hl'⟩, ?_⟩
      intro _ h2; simp at h2
    | err c =>
      rw [hx] at hl'
      exact ⟨.inl rfl, view_failed _ hl' (.inl rfl), fun _ h2 => by simp [Pc.failed] at h2⟩
    | crash =>
      rw [hx] at hl'
      exact ⟨.inl rfl, view_failed _ hl' (.inl rfl), fun _ h2 => by simp [Pc.failed] at h2⟩
    | ub =>
      rw [hx] at hl'
      exact ⟨.inl rfl, view_failed _ hl' (.inl rfl), fun _ h2 => by simp [Pc.failed] at h2⟩
  | roundCheck m =>
    have hmsg : msg = .roundOne m := h
    subst hmsg
    rcases hM with rfl | ⟨K, b, rfl⟩
    · refine ⟨.inl rfl, view_over rfl (.step rfl (.step rfl (.refl _))) (.inl rfl), ?_⟩
      intro _ h2; simp [Thread.step, Mem.init] at h2
    · refine ⟨.inl rfl, ⟨K, b, rfl, .step rfl (.step rfl (.refl _))⟩, ?_⟩
      intro _ h2; simp [Thread.step, started, Mem.store] at h2
  | paillier m =>
    obtain ⟨K, b, rfl, hl⟩ := h
    have e : ∀ b', (⟨rnd, msg, .paillier m⟩ : Thread G).step (started cfg curve inputs K b') =
        match PublicPaillier.new cfg (rnd.relPrime (BN.ofBytes m.publicKey))
          (BN.ofBytes m.publicKey) 2 with
        | .ok pk => (started cfg curve inputs K b', ⟨rnd, msg, .reLoad m pk m.encryptedSet []⟩)
        | r => (started cfg curve inputs K b', ⟨rnd, msg, .failed r⟩) := fun _ => rfl
    have hl' := hl.step_right
    rw [e] at hl' ⊢
    cases hx : PublicPaillier.new cfg (rnd.relPrime (BN.ofBytes m.publicKey))
          (BN.ofBytes m.publicKey) 2 with
    | ok pk =>
      rw [hx] at hl'
      refine ⟨.inl rfl, ⟨K, b, rfl, hl'⟩, ?_⟩
      intro _ h2; simp at h2
    | err c =>
      rw [hx] at hl'
      exact ⟨.inl rfl, view_failed _ hl' (.inr ⟨K, _, _, rfl, rfl⟩),
        fun _ h2 => by simp [Pc.failed] at h2⟩
    | crash =>
      rw [hx] at hl'
      exact ⟨.inl rfl, view_failed _ hl' (.inr ⟨K, _, _, rfl, rfl⟩),
        fun _ h2 => by simp [Pc.failed] at h2⟩
    | ub =>
      rw [hx] at hl'
      exact ⟨.inl rfl, view_failed _ hl' (.inr ⟨K, _, _, rfl, rfl⟩),
        fun _ h2 => by simp [Pc.failed] at h2⟩
  | reLoad m pk todo acc =>
    obtain ⟨K, b, rfl, hl⟩ := h
    cases todo with
    | nil =>
      refine ⟨.inl rfl, ⟨K, b, rfl, hl.step_right⟩, ?_⟩
      intro _ h2; simp [Thread.step] at h2
    | cons a todo =>
      refine ⟨.inl rfl, ⟨rfl, K, b, rfl, hl.step_right⟩, ?_⟩
      intro _ h2; simp [Thread.step] at h2
  | reUse m pk p a todo acc =>
    obtain ⟨rfl, K, b, rfl, hl⟩ := h
    have e : ∀ b', (⟨rnd, msg, .reUse m pk (some 0) a todo acc⟩ : Thread G).step
        (started cfg curve inputs K b') =
        match K.reEncrypt a.element with
        | .ok x => (started cfg curve inputs K b',
            ⟨rnd, msg, .reLoad m pk todo (acc ++ [⟨x, a.data⟩])⟩)
        | r => (started cfg curve inputs K b', ⟨rnd, msg, .failed r⟩) := fun _ => rfl
    have hl' := hl.step_right
    rw [e] at hl' ⊢
    cases hx : K.reEncrypt a.element with
    | ok x =>
      rw [hx] at hl'
      refine ⟨.inl rfl, ⟨K, b, rfl, hl'⟩, ?_⟩
      intro _ h2; simp at h2
    | err c =>
      rw [hx] at hl'
      exact ⟨.inl rfl, view_failed _ hl' (.inr ⟨K, _, _, rfl, rfl⟩),
        fun _ h2 => by simp [Pc.failed] at h2⟩
    | crash =>
      rw [hx] at hl'
      exact ⟨.inl rfl, view_failed _ hl' (.inr ⟨K, _, _, rfl, rfl⟩),
        fun _ h2 => by simp [Pc.failed] at h2⟩
    | ub =>
      rw [hx] at hl'
      exact ⟨.inl rfl, view_failed _ hl' (.inr ⟨K, _, _, rfl, rfl⟩),
        fun _ h2 => by simp [Pc.failed] at h2⟩
  | total m pk acc =>
    obtain ⟨K, b, rfl, hl⟩ := h
    have e : ∀ M : Mem G, (∃ r, (⟨rnd, msg, .total m pk acc⟩ : Thread G).step M =
          (M, ⟨rnd, msg, .mark r⟩) ∧ ∀ M' : Mem G, (⟨rnd, msg, .total m pk acc⟩ : Thread G).step M' =
          (M', ⟨rnd, msg, .mark r⟩)) ∨
        ∃ x r, (⟨rnd, msg, .total m pk acc⟩ : Thread G).step M = (M, ⟨rnd, msg, .done x r⟩) ∧
          ∀ M' : Mem G, (⟨rnd, msg, .total m pk acc⟩ : Thread G).step M' =
            (M', ⟨rnd, msg, .done x r⟩) := by
      intro M
      have ef : ∀ {α : Type} (r : Res α), ∃ x y, (Pc.failed r : Pc G) = .done x y := by
        intro α r; cases r <;> exact ⟨_, _, rfl⟩
      simp only [Thread.step]
      cases pk.encrypt 0 (rnd.lessThan (BN.ofBytes m.publicKey)) with
      | ok zero =>
        dsimp only
        cases BN.toBytes ((setIntersection (rnd.sortClient acc)
            (rnd.sortServer m.reencryptedSet)).foldl (fun s e => pk.add s (BN.ofBytes e.data)) zero)
          with
        | ok bytes => exact .inl ⟨_, rfl, fun _ => rfl⟩
        | err c => exact .inr ⟨_, _, rfl, fun _ => rfl⟩
        | crash => exact .inr ⟨_, _, rfl, fun _ => rfl⟩
        | ub => exact .inr ⟨_, _, rfl, fun _ => rfl⟩
      | err c => exact .inr ⟨_, _, rfl, fun _ => rfl⟩
      | crash => exact .inr ⟨_, _, rfl, fun _ => rfl⟩
      | ub => exact .inr ⟨_, _, rfl, fun _ => rfl⟩
    have hl' := hl.step_right
    rcases e (started cfg curve inputs K b) with ⟨r, h1, h2⟩ | ⟨x, r, h1, h2⟩
    · rw [h2] at hl'
      rw [h1]
      refine ⟨.inl rfl, ⟨K, b, rfl, hl'⟩, ?_⟩
      intro _ h2; simp at h2
    · rw [h2] at hl'
      rw [h1]
      exact ⟨.inl rfl, view_over rfl hl' (.inr ⟨K, _, _, rfl, rfl⟩), fun _ h2 => by simp at h2⟩
  | mark r =>
    obtain ⟨K, b, rfl, hl⟩ := h
    refine ⟨.inr (.inr ⟨K, b, rfl, rfl⟩), ⟨_, _, hl.step_right, .inr ⟨K, _, true, rfl, rfl⟩⟩, ?_⟩
    intro _ h2; simp [Thread.step] at h2
  | send r =>
    obtain ⟨M₀, M₁, hl, h0⟩ := h
    refine ⟨.inl rfl, ⟨M₀, M₁, hl.step_right, h0⟩, ?_⟩
    intro _ h2; simp [Thread.step] at h2
  | done x r =>
    obtain ⟨M₀, M₁, hl, h0⟩ := h
    refine ⟨.inl rfl, ⟨M₀, M₁, hl, h0⟩, ?_⟩
    intro _ h2; simp [Thread.step] at h2

/-- What holds under every schedule with at most one start request. -/
structure OneInv (cfg : ExpCfg) (curve : Res (EcGroup G)) (inputs : List Bytes)
    (calls : List (ServerRand × ClientMsg)) (S : Sys G) : Prop where
  mem : GoodMem cfg curve inputs S.mem
  same : ∀ (i : Nat) (t : Thread G), S.threads[i]? = some t → calls[i]? = some (t.rnd, t.msg)
  view : ∀ (i : Nat) (t : Thread G), S.threads[i]? = some t → View cfg curve inputs S.mem t
  early : ∀ (i : Nat) (t : Thread G), S.threads[i]? = some t → t.msg = .start →
    (t.pc = .entry ∨ t.pc = .startCheck ∨ ∃ K, t.pc = .store K) → S.mem = Mem.init cfg curve inputs

theorem OneInv.step {calls : List (ServerRand × ClientMsg)} {S : Sys G}
    (hone : ∀ (i j : Nat) (w w' : ServerRand), calls[i]? = some (w, .start) →
      calls[j]? = some (w', .start) → i = j)
    (h : OneInv cfg curve inputs calls S) (w : Who) :
    OneInv cfg curve inputs calls (S.step w) := by
  unfold Sys.step
  split
  · exact h
  cases w with
  | main => exact ⟨h.mem, h.same, h.view, h.early⟩
  | call i =>
    dsimp only
    cases ht : S.threads[i]? with
    | none => exact h
    | some t =>
      have hi : i < S.threads.length := (List.getElem?_eq_some_iff.1 ht).1
      obtain ⟨hmv, hv, he⟩ := View.step h.mem (h.view i t ht) (h.early i t ht)
      obtain ⟨e1, e2⟩ := step_same S.mem t
      refine ⟨?_, ?_, ?_, ?_⟩
      · show GoodMem cfg curve inputs (t.step S.mem).1
        rcases hmv with e | ⟨-, K, e⟩ | ⟨K, b, -, e⟩
        · rw [e]; exact h.mem
        · rw [e]; exact .inr ⟨K, _, rfl⟩
        · rw [e]; exact .inr ⟨K, _, rfl⟩
      · intro j u hu
        by_cases hj : j = i
        · subst hj
          rw [List.getElem?_set_self hi] at hu
          cases hu
          rw [e1, e2]; exact h.same _ t ht
        · rw [List.getElem?_set_ne (Ne.symm hj)] at hu
          exact h.same j u hu
      · intro j u hu
        by_cases hj : j = i
        · subst hj
          rw [List.getElem?_set_self hi] at hu
          cases hu
          exact hv
        · rw [List.getElem?_set_ne (Ne.symm hj)] at hu
          exact (h.view j u hu).mono hmv
      · intro j u hu hm hpc
        by_cases hj : j = i
        · subst hj
          rw [List.getElem?_set_self hi] at hu
          cases hu
          exact he hm hpc
        · rw [List.getElem?_set_ne (Ne.symm hj)] at hu
          have h0 := h.early j u hu hm hpc
          show (t.step S.mem).1 = _
          rcases hmv with e | ⟨e, K, e'⟩ | ⟨K, b, e, -⟩
          · rw [e, h0]
          · -- only a start request stores a cipher, and there is only this one
            exfalso
            have hst : t.msg = .start := by
              by_contra hne
              have hnst : (t.step S.mem).1.ptr = S.mem.ptr := by
                obtain ⟨rnd, msg, pc⟩ := t
                have hvt := h.view i _ ht
                cases pc with
                | store K => exact absurd hvt.1 hne
                | entry =>
                  simp only [Thread.step]
                  split
                  · rfl
                  · cases msg <;> rfl
                | startCheck => exact absurd hvt hne
                | encLoad todo acc => exact absurd hvt.1 hne
                | encUse p a todo acc => exact absurd hvt.1 hne
                | roundCheck m =>
                  simp only [Thread.step]
                  split <;> rfl
                | paillier m =>
                  simp only [Thread.step]
                  split <;> rfl
                | reLoad m pk todo acc => cases todo <;> rfl
                | reUse m pk p e todo acc =>
                  simp only [Thread.step]
                  split
                  · rfl
                  · split <;> rfl
                | total m pk acc =>
                  simp only [Thread.step]
                  split
                  · split <;> rfl
                  · rfl
                | mark r => rfl
                | send r => rfl
                | done x r => rfl
              rw [e', e] at hnst
              simp [started, Mem.store, Mem.init] at hnst
            have hc := h.same i t ht
            have hc' := h.same j u hu
            rw [hst] at hc
            rw [hm] at hc'
            exact hj (hone j i _ _ hc' hc)
          · rw [h0] at e
            exact absurd e started_ne_init

theorem repr_started (K : EcCipher G) (b : Bool) :
    Repr (started cfg curve inputs K b)
      { Server.init cfg curve inputs with cipher := some K, finished := b } :=
  ⟨rfl, rfl, rfl, rfl, rfl, by simp [started, Mem.store], rfl⟩

/-- **C97**, every schedule: if at most one of the requests is a start request, then however
the calls overlap no deleted or missing cipher is used, and every call returns what the
one-at-a-time server returns in one of the three states of its life (new; started, with
one and the same cipher for all calls; finished). -/
theorem C97_one_start_partial (cfg : ExpCfg) (curve : Res (EcGroup G)) (inputs : List Bytes)
    (calls : List (ServerRand × ClientMsg)) (sched : List Who)
    (hone : ∀ (i j : Nat) (w w' : ServerRand), calls[i]? = some (w, .start) →
      calls[j]? = some (w', .start) → i = j) :
    ((Sys.init cfg curve inputs calls).run sched).mem.fault = false ∧
    ∃ K : Option (EcCipher G), ∀ i rnd msg r, calls[i]? = some (rnd, msg) →
      ((Sys.init cfg curve inputs calls).run sched).result i = some r →
      ∃ s : Server G, (s = Server.init cfg curve inputs ∨ ∃ K₀ b, K = some K₀ ∧
          s = { Server.init cfg curve inputs with cipher := some K₀, finished := b }) ∧
        r = ((s.handle rnd (fun _ => .ok ()) msg).sent,
          (s.handle rnd (fun _ => .ok ()) msg).status) := by
  have h : OneInv cfg curve inputs calls ((Sys.init cfg curve inputs calls).run sched) := by
    refine Sys.run_induct (P := OneInv cfg curve inputs calls) (fun S w h => h.step hone w) sched _ ?_
    have hent : ∀ (i : Nat) (t : Thread G), (Sys.init cfg curve inputs calls).threads[i]? = some t →
        t.pc = .entry ∧ calls[i]? = some (t.rnd, t.msg) := by
      intro i t ht
      simp only [Sys.init, List.getElem?_map, Option.map_eq_some_iff] at ht
      obtain ⟨c, hc, rfl⟩ := ht
      exact ⟨rfl, hc⟩
    refine ⟨.inl rfl, fun i t ht => (hent i t ht).2, ?_, fun _ _ _ _ _ => rfl⟩
    intro i t ht
    unfold View
    rw [(hent i t ht).1]
    trivial
  set S := (Sys.init cfg curve inputs calls).run sched
  have hres : ∀ i rnd msg r, calls[i]? = some (rnd, msg) → S.result i = some r →
      ∃ s : Server G, (s = Server.init cfg curve inputs ∨ ∃ K₀ b b', S.mem =
          started cfg curve inputs K₀ b' ∧
          s = { Server.init cfg curve inputs with cipher := some K₀, finished := b }) ∧
        r = ((s.handle rnd (fun _ => .ok ()) msg).sent,
          (s.handle rnd (fun _ => .ok ()) msg).status) := by
    intro i rnd msg r hc hr
    obtain ⟨t, ht, hr⟩ := Option.bind_eq_some_iff.1 hr
    have hv := h.view i t ht
    have hs := h.same i t ht
    rw [hc] at hs
    obtain ⟨rnd', msg', pc⟩ := t
    simp only [Option.some.injEq, Prod.mk.injEq] at hs
    obtain ⟨rfl, rfl⟩ := hs
    cases pc <;> simp only [Pc.result, reduceCtorEq] at hr
    rename_i x y
    obtain ⟨M₀, M₁, hl, h0⟩ := hv
    have fin : ∀ s, Repr M₀ s → r = ((s.handle rnd (fun _ => .ok ()) msg).sent,
          (s.handle rnd (fun _ => .ok ()) msg).status) := by
      intro s hs
      obtain ⟨M', hl', -⟩ := alone_handle hs rnd msg
      have := congrArg (fun z => z.2.pc.result) (Leads.unique hl hl' rfl rfl)
      simp only [Pc.result, Option.some.injEq] at this
      rw [← this, ← Option.some.inj hr]
    rcases h0 with rfl | ⟨K, b, b', rfl, e⟩
    · exact ⟨_, .inl rfl, fin _ (repr_init cfg curve inputs)⟩
    · exact ⟨_, .inr ⟨K, b, b', e, rfl⟩, fin _ (repr_started K b)⟩
  rcases h.mem with e | ⟨K, b, e⟩
  · refine ⟨by rw [e]; rfl, none, ?_⟩
    intro i rnd msg r hc hr
    obtain ⟨s, hs, hr⟩ := hres i rnd msg r hc hr
    refine ⟨s, .inl ?_, hr⟩
    rcases hs with hs | ⟨K₀, b, b', e', -⟩
    · exact hs
    · rw [e] at e'; exact absurd e' started_ne_init
  · refine ⟨by rw [e]; rfl, some K, ?_⟩
    intro i rnd msg r hc hr
    obtain ⟨s, hs, hr⟩ := hres i rnd msg r hc hr
    refine ⟨s, ?_, hr⟩
    rcases hs with hs | ⟨K₀, b₀, b', e', hs⟩
    · exact .inl hs
    · have : K = K₀ := by
        rw [e] at e'
        have := congrArg Mem.heap e'
        simpa [started, Mem.store, Mem.init] using this
      subst this
      exact .inr ⟨K, b₀, rfl, hs⟩

end OneStart

/-- **C97**, end of the program: under every schedule and for all requests, the main thread
leaves its loop (and shuts the service down) only after some call has computed an answer
to the client's round one. -/
theorem C97_shutdown_after_answer (cfg : ExpCfg) (curve : Res (EcGroup G)) (inputs : List Bytes)
    (calls : List (ServerRand × ClientMsg)) (sched : List Who)
    (h : ((Sys.init cfg curve inputs calls).run sched).polling = false) :
    ∃ (i : Nat) (t : Thread G) (r : ServerRoundTwo),
      ((Sys.init cfg curve inputs calls).run sched).threads[i]? = some t ∧
      (t.pc = .send (.roundTwo r) ∨ t.pc = .done [.roundTwo r] (.ok ())) := by
  have hf := polling_inv cfg curve inputs calls sched h
  revert hf
  refine Sys.run_induct (P := fun S : Sys G => S.mem.finished = true →
    ∃ (i : Nat) (t : Thread G) (r : ServerRoundTwo), S.threads[i]? = some t ∧
      (t.pc = .send (.roundTwo r) ∨ t.pc = .done [.roundTwo r] (.ok ()))) ?_ sched _
    (by simp [Sys.init, Mem.init])
  intro S w ih
  unfold Sys.step
  split
  · exact ih
  cases w with
  | main => exact ih
  | call i =>
    dsimp only
    cases ht : S.threads[i]? with
    | none => exact ih
    | some t =>
      have hi : i < S.threads.length := (List.getElem?_eq_some_iff.1 ht).1
      intro hfin
      by_cases hf : S.mem.finished = true
      · obtain ⟨j, u, r, hu, hpc⟩ := ih hf
        by_cases hj : j = i
        · subst hj
          rw [ht] at hu
          cases hu
          refine ⟨j, (t.step S.mem).2, r, List.getElem?_set_self hi, .inr ?_⟩
          rcases hpc with hpc | hpc <;> simp [Thread.step, hpc]
        · exact ⟨j, u, r, by rw [List.getElem?_set_ne (Ne.symm hj)]; exact hu, hpc⟩
      · obtain ⟨r, hr⟩ := Thread.step_finished (t := t) (by simpa using hf) hfin
        exact ⟨i, (t.step S.mem).2, r, List.getElem?_set_self hi, .inl (by simp [Thread.step, hr])⟩

/-! ### Witnesses -/

/-- A client message without elements, under the modulus 77. -/
def emptyRound : ClientMsg := .roundOne ⟨[77], [], []⟩

/-- A run of start request and round one over the toy group. -/
def toySys (calls : List (ServerRand × ClientMsg)) : Sys (ZMod 11) :=
  Sys.init ⟨false, 64⟩ (.ok toyEc) [[2], [3]] calls

/-- The ordinary run of one client: one call after the other. -/
def honestSched : List Who := List.replicate 9 (.call 0) ++ [.main] ++ List.replicate 9 (.call 1)

/-- It is serial, both calls are answered, and the program ends. -/
example : ((toySys [(toyServerRand, .start), (toyServerRand, emptyRound)]).run
      (honestSched ++ [.main])).polling = false ∧
    ((toySys [(toyServerRand, .start), (toyServerRand, emptyRound)]).run honestSched).result 1 =
      some ([.roundTwo ⟨0, [1]⟩], .ok ()) := by
  decide +kernel

/-- Whether a schedule is serial, by evaluation. -/
def serialB : Sys G → List Who → Bool
  | _, [] => true
  | S, w :: ws =>
    (match w with
      | .main => true
      | .call i => (List.range S.threads.length).all fun j => j == i ||
        match S.threads[j]? with
        | none => true
        | some t => match t.pc with
          | .entry => true
          | .done _ _ => true
          | _ => false) && serialB (S.step w) ws

theorem serial_of_check : ∀ (ws : List Who) (S : Sys G), serialB S ws = true → Serial S ws
  | [], _, _ => trivial
  | w :: ws, S, h => by
    simp only [serialB, Bool.and_eq_true] at h
    refine ⟨?_, serial_of_check ws _ h.2⟩
    rintro i rfl j t hj ht
    have h1 := h.1
    simp only [List.all_eq_true, List.mem_range] at h1
    have := h1 j (List.getElem?_eq_some_iff.1 ht).1
    simp only [beq_iff_eq, hj, Bool.or_eq_true, false_or, ht] at this
    split at this
    · exact .inl (by assumption)
    · rename_i hpc
      exact .inr ⟨_, by rw [hpc]; rfl⟩
    · cases this

example : Serial (toySys [(toyServerRand, .start), (toyServerRand, emptyRound)])
    (honestSched ++ [.main]) := serial_of_check _ _ (by decide +kernel)

theorem C96_fails : ¬ C96Statement (ZMod 11) := by
  intro h
  obtain ⟨k, -, hk⟩ := C96_every_completed_run_races ⟨false, 64⟩ (.ok toyEc) [[2], [3]]
    [(toyServerRand, .start), (toyServerRand, emptyRound)] honestSched (by decide +kernel)
  exact h _ _ _ _ _ hk

/-- Two clients start at the same time: both find no cipher, the second assignment deletes
the cipher the first call is using. -/
theorem C97_two_starts_fails :
    ((toySys [(toyServerRand, .start), (toyServerRand, .start)]).run
      [.call 0, .call 1, .call 0, .call 1, .call 0, .call 0, .call 1, .call 0]).mem.fault = true := by
  decide +kernel

/-- Two round-one messages at the same time are both answered, although the server answers
only one in every sequential history (C04): the limit of one query per run does not hold. -/
theorem C97_two_answers_fails : ∃ sched,
    ((toySys [(toyServerRand, .start), (toyServerRand, emptyRound), (toyServerRand, emptyRound)]).run
      sched).result 1 = some ([.roundTwo ⟨0, [1]⟩], .ok ()) ∧
    ((toySys [(toyServerRand, .start), (toyServerRand, emptyRound), (toyServerRand, emptyRound)]).run
      sched).result 2 = some ([.roundTwo ⟨0, [1]⟩], .ok ()) :=
  ⟨List.replicate 9 (.call 0) ++ [.call 1, .call 2] ++ List.replicate 8 (.call 1) ++
    List.replicate 8 (.call 2), by decide +kernel⟩

/-- In a sequential history no two different calls get an answer to round one. -/
theorem sequential_one_answer {cfg : ExpCfg} {curve : Res (EcGroup G)} {inputs : List Bytes}
    {calls : List (ServerRand × ClientMsg)} {S : Sys G}
    (h : Sequential (Server.init cfg curve inputs) calls S) {i j : Nat} (hij : i ≠ j)
    {r r' : ServerRoundTwo} {st st' : Res Unit} (hi : S.result i = some ([.roundTwo r], st))
    (hj : S.result j = some ([.roundTwo r'], st')) : False := by
  obtain ⟨order, -, hin, cs, -, hrep⟩ := h
  obtain ⟨-, -, hfin, hrefuse⟩ := C04_life_cycle cfg curve inputs (cs.map asCall)
  set tr := serverTrace (Server.init cfg curve inputs) (cs.map asCall)
  have hlen : order.length = tr.length := by
    have := congrArg List.length hrep
    simpa using this
  have pos : ∀ {k : Nat} {q : ServerRoundTwo} {st : Res Unit},
      S.result k = some ([.roundTwo q], st) →
      ∃ a, ∃ ha : a < tr.length, order[a]'(hlen ▸ ha) = k ∧ tr[a].sent = [.roundTwo q] := by
    intro k q st hk
    obtain ⟨a, ha, hak⟩ := List.getElem_of_mem ((hin k).2 ⟨_, hk⟩)
    refine ⟨a, hlen ▸ ha, hak, ?_⟩
    have h1 : (order.map S.result)[a]? = some (S.result k) := by
      rw [List.getElem?_map, List.getElem?_eq_getElem ha, hak]; rfl
    rw [hrep, List.getElem?_map, List.getElem?_eq_getElem (hlen ▸ ha)] at h1
    simp only [Option.map_some, Option.some.injEq, hk, Prod.mk.injEq] at h1
    exact h1.1
  obtain ⟨a, ha, hai, hsa⟩ := pos hi
  obtain ⟨b, hb, hbj, hsb⟩ := pos hj
  rcases Nat.lt_trichotomy a b with hab | hab | hab
  · have := (hrefuse a b ha hb hab ((hfin a ha).2 ⟨a, ha, le_refl _, r, by simp [hsa]⟩)).2.1
    rw [hsb] at this; cases this
  · subst hab
    exact hij (hai.symm.trans hbj)
  · have := (hrefuse b a hb ha hab ((hfin b hb).2 ⟨b, hb, le_refl _, r', by simp [hsb]⟩)).2.1
    rw [hsa] at this; cases this

/-- **C97** is false: overlapping calls can get replies that no order explains. -/
theorem C97_fails : ¬ C97Statement (ZMod 11) := by
  intro h
  obtain ⟨sched, h1, h2⟩ := C97_two_answers_fails
  exact sequential_one_answer (h _ _ _ _ sched) (by decide : (1 : Nat) ≠ 2) h1 h2

end PJC.Conc
