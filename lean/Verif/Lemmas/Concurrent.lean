import Verif.Model.Concurrent
/-
A call that runs alone: the steps of `PJC.Conc.Thread.step` add up to `Server.handle`.
-/
set_option linter.unusedSectionVars false
namespace PJC.Conc
open PJC.Protocol

variable {G : Type} [AddCommGroup G] [DecidableEq G]

/-- The server object described by a memory without stale pointers. -/
structure Repr (M : Mem G) (s : Server G) : Prop where
  cfg : M.cfg = s.cfg
  curve : M.curve = s.curve
  inputs : M.inputs = s.inputs
  finished : M.finished = s.finished
  fault : M.fault = false
  none_iff : M.ptr = none ↔ s.cipher = none
  deref : M.deref M.ptr = s.cipher

/-- `n` steps of one call on its own. -/
def alone : Nat → Mem G × Thread G → Mem G × Thread G
  | 0, x => x
  | n + 1, x => alone n (x.2.step x.1)

theorem alone_add (n m : Nat) : ∀ x : Mem G × Thread G, alone (n + m) x = alone m (alone n x) := by
  induction n with
  | zero => intro x; simp [alone]
  | succ n ih => intro x; rw [Nat.succ_add]; exact ih _

/-- One call from `x` comes, alone, to `y`. -/
def Leads (x y : Mem G × Thread G) : Prop := ∃ n, alone n x = y

theorem Leads.refl (x : Mem G × Thread G) : Leads x x := ⟨0, rfl⟩

theorem Leads.step {M : Mem G} {t : Thread G} {y z : Mem G × Thread G} (h : t.step M = y)
    (h' : Leads y z) : Leads (M, t) z := by
  obtain ⟨n, hn⟩ := h'
  exact ⟨n + 1, by rw [← hn, ← h]; rfl⟩

/-- What a call returned. -/
def Pc.result : Pc G → Option (List ServerMsg × Res Unit)
  | .done sent st => some (sent, st)
  | _ => none

theorem step_done {M : Mem G} {t : Thread G} {r : List ServerMsg × Res Unit}
    (h : t.pc.result = some r) : t.step M = (M, t) := by
  obtain ⟨rnd, msg, pc⟩ := t
  cases pc <;> simp_all [Pc.result, Thread.step]

theorem alone_done {M : Mem G} {t : Thread G} {r : List ServerMsg × Res Unit}
    (h : t.pc.result = some r) : ∀ n, alone n (M, t) = (M, t)
  | 0 => rfl
  | n + 1 => by
    show alone n (t.step M) = _
    rw [step_done h]; exact alone_done h n

/-- The outcome of a run on its own does not depend on when one looks. -/
theorem Leads.unique {x : Mem G × Thread G} {M M' : Mem G} {t t' : Thread G}
    {r r' : List ServerMsg × Res Unit}
    (h : Leads x (M, t)) (h' : Leads x (M', t')) (hr : t.pc.result = some r)
    (hr' : t'.pc.result = some r') : (M, t) = (M', t') := by
  obtain ⟨n, hn⟩ := h
  obtain ⟨n', hn'⟩ := h'
  rcases Nat.le_total n n' with hle | hle
  · obtain ⟨k, rfl⟩ := Nat.exists_eq_add_of_le hle
    rw [alone_add, hn, alone_done hr] at hn'
    exact hn'
  · obtain ⟨k, rfl⟩ := Nat.exists_eq_add_of_le hle
    rw [alone_add, hn', alone_done hr'] at hn
    exact hn.symm

theorem deref_some {M : Mem G} {s : Server G} (h : Repr M s) {K : EcCipher G}
    (hK : s.cipher = some K) : M.deref M.ptr = some K := by rw [h.deref, hK]

theorem alone_encrypt {M : Mem G} {K : EcCipher G} (hp : M.deref M.ptr = some K)
    (rnd : ServerRand) (msg : ClientMsg) : ∀ (todo : List Bytes) (acc : List EncElement),
    Leads (M, ⟨rnd, msg, .encLoad todo acc⟩)
      (match Server.encryptLoop K todo with
       | .ok set => (M, ⟨rnd, msg, .send (.roundOne (acc ++ set))⟩)
       | r => (M, ⟨rnd, msg, .failed r⟩))
  | [], acc => by
    simp only [Server.encryptLoop, List.append_nil]
    exact .step rfl (.refl _)
  | a :: todo, acc => by
    refine .step rfl ?_
    cases he : K.encrypt a with
    | ok e =>
      refine .step (y := (M, ⟨rnd, msg, .encLoad todo (acc ++ [⟨e, []⟩])⟩)) ?_ ?_
      · simp only [Thread.step, hp, he]
      · have ih := alone_encrypt hp rnd msg todo (acc ++ [⟨e, []⟩])
        simp only [Server.encryptLoop, he, Res.ok_bind]
        cases hl : Server.encryptLoop K todo with
        | ok set => simpa [hl, Res.ok_bind, Res.pure_eq] using ih
        | err c => rw [hl] at ih; exact ih
        | crash => rw [hl] at ih; exact ih
        | ub => rw [hl] at ih; exact ih
    | err c =>
      refine .step (y := (M, ⟨rnd, msg, .done [] (.err c)⟩)) ?_ ?_
      · simp only [Thread.step, hp, he]; rfl
      · simp only [Server.encryptLoop, he]; exact .refl _
    | crash =>
      refine .step (y := (M, ⟨rnd, msg, .done [] .crash⟩)) ?_ ?_
      · simp only [Thread.step, hp, he]; rfl
      · simp only [Server.encryptLoop, he]; exact .refl _
    | ub =>
      refine .step (y := (M, ⟨rnd, msg, .done [] .ub⟩)) ?_ ?_
      · simp only [Thread.step, hp, he]; rfl
      · simp only [Server.encryptLoop, he]; exact .refl _

theorem alone_reEncrypt {M : Mem G} {K : EcCipher G} (hp : M.deref M.ptr = some K)
    (rnd : ServerRand) (msg : ClientMsg) (m : ClientRoundOne) (pk : PublicPaillier) :
    ∀ (todo acc : List EncElement),
    Leads (M, ⟨rnd, msg, .reLoad m pk todo acc⟩)
      (match Server.reEncryptLoop K todo with
       | .ok set => (M, ⟨rnd, msg, .total m pk (acc ++ set)⟩)
       | r => (M, ⟨rnd, msg, .failed r⟩))
  | [], acc => by
    simp only [Server.reEncryptLoop, List.append_nil]
    exact .step rfl (.refl _)
  | a :: todo, acc => by
    refine .step rfl ?_
    cases he : K.reEncrypt a.element with
    | ok e =>
      refine .step (y := (M, ⟨rnd, msg, .reLoad m pk todo (acc ++ [⟨e, a.data⟩])⟩)) ?_ ?_
      · simp only [Thread.step, hp, he]
      · have ih := alone_reEncrypt hp rnd msg m pk todo (acc ++ [⟨e, a.data⟩])
        simp only [Server.reEncryptLoop, he, Res.ok_bind]
        cases hl : Server.reEncryptLoop K todo with
        | ok set => simpa [hl, Res.ok_bind, Res.pure_eq] using ih
        | err c => rw [hl] at ih; exact ih
        | crash => rw [hl] at ih; exact ih
        | ub => rw [hl] at ih; exact ih
    | err c =>
      refine .step (y := (M, ⟨rnd, msg, .done [] (.err c)⟩)) ?_ ?_
      · simp only [Thread.step, hp, he]; rfl
      · simp only [Server.reEncryptLoop, he]; exact .refl _
    | crash =>
      refine .step (y := (M, ⟨rnd, msg, .done [] .crash⟩)) ?_ ?_
      · simp only [Thread.step, hp, he]; rfl
      · simp only [Server.reEncryptLoop, he]; exact .refl _
    | ub =>
      refine .step (y := (M, ⟨rnd, msg, .done [] .ub⟩)) ?_ ?_
      · simp only [Thread.step, hp, he]; rfl
      · simp only [Server.reEncryptLoop, he]; exact .refl _

theorem Leads.trans {x y z : Mem G × Thread G} (h : Leads x y) (h' : Leads y z) : Leads x z := by
  obtain ⟨n, hn⟩ := h
  obtain ⟨m, hm⟩ := h'
  exact ⟨n + m, by rw [alone_add, hn, hm]⟩

theorem Mem.store_repr {M : Mem G} {s : Server G} (h : Repr M s) (hc : s.cipher = none)
    (K : EcCipher G) : Repr (M.store K) { s with cipher := some K } := by
  have hp : M.ptr = none := h.none_iff.2 hc
  refine ⟨h.cfg, h.curve, h.inputs, h.finished, h.fault, by simp [Mem.store], ?_⟩
  simp [Mem.store, hp, Mem.deref]

/-- **A call that runs alone** does what `Server.handle` says. -/
theorem alone_handle {M : Mem G} {s : Server G} (h : Repr M s) (rnd : ServerRand)
    (msg : ClientMsg) :
    ∃ M', Leads (M, ⟨rnd, msg, .entry⟩)
        (M', ⟨rnd, msg, .done (s.handle rnd (fun _ => .ok ()) msg).sent
          (s.handle rnd (fun _ => .ok ()) msg).status⟩) ∧
      Repr M' (s.handle rnd (fun _ => .ok ()) msg).state := by
  unfold Server.handle
  by_cases hf : s.finished = true
  · simp only [hf, if_true]
    exact ⟨M, .step (by simp only [Thread.step, h.finished, hf, if_true]) (.refl _), h⟩
  have hf' : s.finished = false := by simpa using hf
  have hMf : M.finished = false := by rw [h.finished, hf']
  simp only [hf', Bool.false_eq_true, if_false]
  cases msg with
  | other => exact ⟨M, .step (by simp [Thread.step, hMf]) (.refl _), h⟩
  | empty => exact ⟨M, .step (by simp [Thread.step, hMf]) (.refl _), h⟩
  | start =>
    have h1 : ∀ {y : Mem G × Thread G}, Leads (M, ⟨rnd, .start, .startCheck⟩) y →
        Leads (M, ⟨rnd, .start, .entry⟩) y := fun hy => .step (by simp [Thread.step, hMf]) hy
    simp only [Server.encryptSet]
    cases hc : s.cipher with
    | some K =>
      have : ∃ p, M.ptr = some p := by
        cases hp : M.ptr with
        | none => rw [h.none_iff.1 hp] at hc; cases hc
        | some p => exact ⟨p, rfl⟩
      obtain ⟨p, hp⟩ := this
      exact ⟨M, h1 (.step (by simp only [Thread.step, hp]) (.refl _)), h⟩
    | none =>
      have hp : M.ptr = none := h.none_iff.2 hc
      simp only []
      cases hK : EcCipher.createWithNewKey s.curve .sha256 rnd.keyWord with
      | ok K =>
        have h2 : Leads (M, ⟨rnd, .start, .entry⟩)
            (M.store K, ⟨rnd, .start, .encLoad M.inputs []⟩) :=
          h1 (.step (y := (M, ⟨rnd, .start, .store K⟩))
            (by simp only [Thread.step, hp, h.curve, hK]) (.step rfl (.refl _)))
        have hr := Mem.store_repr h hc K
        have h3 := alone_encrypt (deref_some hr rfl) rnd .start M.inputs []
        rw [h.inputs] at h2 h3
        simp only []
        cases hl : Server.encryptLoop K s.inputs with
        | ok set =>
          simp only [hl, List.nil_append] at h3
          exact ⟨_, h2.trans (h3.trans (.step rfl (.refl _))), hr⟩
        | err c => simp only [hl] at h3; exact ⟨_, h2.trans h3, hr⟩
        | crash => simp only [hl] at h3; exact ⟨_, h2.trans h3, hr⟩
        | ub => simp only [hl] at h3; exact ⟨_, h2.trans h3, hr⟩
      | err c =>
        exact ⟨M, h1 (.step (by simp only [Thread.step, hp, h.curve, hK]; rfl) (.refl _)), h⟩
      | crash =>
        exact ⟨M, h1 (.step (by simp only [Thread.step, hp, h.curve, hK]; rfl) (.refl _)), h⟩
      | ub =>
        exact ⟨M, h1 (.step (by simp only [Thread.step, hp, h.curve, hK]; rfl) (.refl _)), h⟩
  | roundOne m =>
    have h1 : ∀ {y : Mem G × Thread G}, Leads (M, ⟨rnd, .roundOne m, .roundCheck m⟩) y →
        Leads (M, ⟨rnd, .roundOne m, .entry⟩) y := fun hy => .step (by simp [Thread.step, hMf]) hy
    simp only [Server.computeIntersection]
    cases hc : s.cipher with
    | none =>
      have hp : M.ptr = none := h.none_iff.2 hc
      exact ⟨M, h1 (.step (by simp only [Thread.step, hp]) (.refl _)), h⟩
    | some K =>
      have : ∃ p, M.ptr = some p := by
        cases hp : M.ptr with
        | none => rw [h.none_iff.1 hp] at hc; cases hc
        | some p => exact ⟨p, rfl⟩
      obtain ⟨p, hp⟩ := this
      have h2 : ∀ {y : Mem G × Thread G}, Leads (M, ⟨rnd, .roundOne m, .paillier m⟩) y →
          Leads (M, ⟨rnd, .roundOne m, .entry⟩) y :=
        fun hy => h1 (.step (by simp only [Thread.step, hp]) hy)
      simp only []
      cases hpk : PublicPaillier.new s.cfg (rnd.relPrime (BN.ofBytes m.publicKey))
          (BN.ofBytes m.publicKey) 2 with
      | err c =>
        exact ⟨M, h2 (.step (by simp only [Thread.step, h.cfg, hpk]; rfl) (.refl _)), h⟩
      | crash =>
        exact ⟨M, h2 (.step (by simp only [Thread.step, h.cfg, hpk]; rfl) (.refl _)), h⟩
      | ub =>
        exact ⟨M, h2 (.step (by simp only [Thread.step, h.cfg, hpk]; rfl) (.refl _)), h⟩
      | ok pk =>
        have h3 : Leads (M, ⟨rnd, .roundOne m, .entry⟩)
            (M, ⟨rnd, .roundOne m, .reLoad m pk m.encryptedSet []⟩) :=
          h2 (.step (by simp only [Thread.step, h.cfg, hpk]) (.refl _))
        have h4 := alone_reEncrypt (deref_some h hc) rnd (.roundOne m) m pk m.encryptedSet []
        simp only [Res.ok_bind]
        cases hl : Server.reEncryptLoop K m.encryptedSet with
        | err c => simp only [hl] at h4; exact ⟨_, h3.trans h4, h⟩
        | crash => simp only [hl] at h4; exact ⟨_, h3.trans h4, h⟩
        | ub => simp only [hl] at h4; exact ⟨_, h3.trans h4, h⟩
        | ok set =>
          simp only [hl, List.nil_append] at h4
          have h5 := h3.trans h4
          simp only [Res.ok_bind]
          cases hz : pk.encrypt 0 (rnd.lessThan (BN.ofBytes m.publicKey)) with
          | err c =>
            exact ⟨M, h5.trans (.step (by simp only [Thread.step, hz]; rfl) (.refl _)), h⟩
          | crash =>
            exact ⟨M, h5.trans (.step (by simp only [Thread.step, hz]; rfl) (.refl _)), h⟩
          | ub =>
            exact ⟨M, h5.trans (.step (by simp only [Thread.step, hz]; rfl) (.refl _)), h⟩
          | ok zero =>
            simp only [Res.ok_bind]
            cases hb : BN.toBytes ((setIntersection (rnd.sortClient set)
                (rnd.sortServer m.reencryptedSet)).foldl
                (fun s e => pk.add s (BN.ofBytes e.data)) zero) with
            | err c =>
              exact ⟨M, h5.trans (.step (by simp only [Thread.step, hz, hb]; rfl) (.refl _)), h⟩
            | crash =>
              exact ⟨M, h5.trans (.step (by simp only [Thread.step, hz, hb]; rfl) (.refl _)), h⟩
            | ub =>
              exact ⟨M, h5.trans (.step (by simp only [Thread.step, hz, hb]; rfl) (.refl _)), h⟩
            | ok bytes =>
              simp only [Res.ok_bind, Res.pure_eq]
              refine ⟨{ M with finished := true },
                h5.trans (.step (y := (M, ⟨rnd, .roundOne m, .mark _⟩))
                  (by simp only [Thread.step, hz, hb])
                  (.step (y := ({ M with finished := true }, ⟨rnd, .roundOne m, .send _⟩)) rfl
                    (.step rfl (.refl _)))), ?_⟩
              refine ⟨h.cfg, h.curve, h.inputs, rfl, h.fault, ?_, ?_⟩
              · show M.ptr = none ↔ some K = none
                rw [hp]; simp
              · show M.deref M.ptr = some K
                exact deref_some h hc

end PJC.Conc
