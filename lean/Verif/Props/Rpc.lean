import Verif.Model.Rpc
import Verif.Props.ProtocolHostile
/-
C10, C66: the RPC service and the client program.
-/
set_option linter.unusedSectionVars false
namespace PJC.Protocol
open PJC.Props

/-! ### C10 -/

/-- The messages a run handed to `Send`. -/
def Prog.sends (p : Prog) : List (ServerMsg × Res Unit) := (p.run .fresh).2.1

/-- The status the wrapped `Handle` returned. -/
def Prog.status (p : Prog) : Res Unit := (p.run .fresh).2.2

theorem Prog.run_sent (p : Prog) : ∀ k : SingleSink, k.messageSent = true →
    (p.run k).1 = k ∧ ∀ x ∈ (p.run k).2.1, x.2 = .err .invalidArgument := by
  induction p with
  | ret st => intro k _; simp [Prog.run]
  | send m f ih =>
    intro k hk
    have : k.send m = (k, .err .invalidArgument) := by simp [SingleSink.send, hk]
    obtain ⟨h1, h2⟩ := ih (.err .invalidArgument) k hk
    simp only [Prog.run, this, h1, true_and]
    intro x hx
    rcases List.mem_cons.1 hx with rfl | hx
    · rfl
    · exact h2 x hx

/-- **C10**, any protocol server: the response is the first message it sends (the empty
response if it sends none), that `Send` succeeds and every further one is refused with
INVALID_ARGUMENT. -/
theorem C10_first_message_only (p : Prog) :
    (p.sends = [] ∧ (rpcHandle p).2 = .other) ∨
    ∃ m rest, p.sends = (m, .ok ()) :: rest ∧ (rpcHandle p).2 = m ∧
      ∀ x ∈ rest, x.2 = .err .invalidArgument := by
  cases p with
  | ret st => exact .inl ⟨rfl, rfl⟩
  | send m f =>
    obtain ⟨h1, h2⟩ := (f (.ok ())).run_sent ⟨m, true⟩ rfl
    refine .inr ⟨m, ((f (.ok ())).run ⟨m, true⟩).2.1, rfl, ?_, h2⟩
    show ((f (.ok ())).run ⟨m, true⟩).1.response = m
    rw [h1]

/-- **C10**, codes, any protocol server: OK, INVALID_ARGUMENT and INTERNAL are kept, every
other error becomes UNKNOWN; in particular OK is returned only if the server said OK. -/
theorem C10_codes (p : Prog) :
    ((rpcHandle p).1 = .ok .ok ↔ p.status = .ok ()) ∧
    ((rpcHandle p).1 = .ok .invalidArgument ↔ p.status = .err .invalidArgument) ∧
    ((rpcHandle p).1 = .ok .internal ↔ p.status = .err .internal) ∧
    ((rpcHandle p).1 = .ok .unknown ↔
      ∃ c, p.status = .err c ∧ c ≠ .invalidArgument ∧ c ≠ .internal) := by
  have e : (rpcHandle p).1 = convertStatus p.status := rfl
  rw [e]
  cases p.status with
  | ok u => simp [convertStatus]
  | err c => cases c <;> simp [convertStatus]
  | crash => simp [convertStatus]
  | ub => simp [convertStatus]

variable {G : Type} [AddCommGroup G] [DecidableEq G]

/-- `Server.prog` is the server's `Handle`: against any sink with a fixed answer it returns
what `Handle` returns. -/
theorem Server.prog_faithful (s : Server G) (rnd : ServerRand) (m : ClientMsg)
    (sink : ServerMsg → Res Unit) :
    (∃ st, s.prog rnd m = .ret st ∧ (s.handle rnd sink m).sent = [] ∧
      (s.handle rnd sink m).status = st) ∨
    ∃ x, s.prog rnd m = .send x .ret ∧ (s.handle rnd sink m).sent = [x] ∧
      (s.handle rnd sink m).status = sink x := by
  unfold Server.prog Server.handle
  by_cases hf : s.finished = true
  · simp [hf]
  simp only [hf, Bool.false_eq_true, if_false]
  cases m with
  | other => simp
  | empty => simp
  | start =>
    simp only []
    obtain ⟨s', r⟩ := s.encryptSet rnd
    cases r <;> simp
  | roundOne m => cases hci : s.computeIntersection rnd m <;> simp [hci]

/-- **C10**, this project's server: a call returns OK exactly if the server sent a message,
then exactly one, and that is the response. -/
theorem C10_one_reply (s : Server G) (rnd : ServerRand) (m : ClientMsg) :
    (rpcHandle (s.prog rnd m)).1 = .ok .ok ↔
      ∃ x, (s.prog rnd m).sends = [(x, .ok ())] ∧ (rpcHandle (s.prog rnd m)).2 = x := by
  rw [(C10_codes _).1]
  rcases s.prog_faithful rnd m accept with ⟨st, h, h1, h2⟩ | ⟨x, h, h1, h2⟩
  · rw [h]
    have hst : st ≠ .ok () := by
      rintro rfl
      revert h1 h2
      unfold Server.handle
      by_cases hf : s.finished = true
      · simp [hf]
      simp only [hf, Bool.false_eq_true, if_false]
      cases m with
      | other => simp
      | empty => simp
      | start =>
        simp only []
        obtain ⟨s', r⟩ := s.encryptSet rnd
        cases r <;> simp
      | roundOne m => cases hci : s.computeIntersection rnd m <;> simp [hci]
    constructor
    · intro h'; exact absurd h' hst
    · rintro ⟨x, hx, -⟩
      simp [Prog.sends, Prog.run] at hx
  · rw [h]
    exact ⟨fun _ => ⟨x, rfl, rfl⟩, fun _ => rfl⟩

/-- A server that answers OK without sending anything gets OK through with an empty
response: "OK only if exactly one message was sent" needs the wrapped server. -/
theorem C10_arbitrary_server_fails :
    ¬ ∀ p : Prog, (rpcHandle p).1 = .ok .ok → p.sends.length = 1 := by
  intro h
  exact absurd (h (.ret (.ok ())) rfl) (by decide)

example : ∃ set, rpcHandle ((Server.init ⟨false, 64⟩ (.ok toyEc) [[2], [3]]).prog toyServerRand
    .start) = (.ok .ok, .roundOne set) := by
  obtain ⟨K, set, h, hK⟩ := toyServer_started [[2], [3]]
  refine ⟨set, ?_⟩
  unfold Server.prog
  have h' : Server.handle (Server.init ⟨false, 64⟩ (.ok toyEc) [[2], [3]]) toyServerRand
    (fun _ => .ok ()) .start = _ := h
  rw [h']
  rfl

/-! ### C66 -/

/-- **C66**.  Exit code 0 implies a complete run: both remote calls succeeded, the replies
were a server-round-one message and then a server-round-two message `m`, the client is
finished, and the two numbers printed are the size in `m` and the decryption of its sum. -/
theorem C66_exit_zero {σ : Type} (N : Net σ) (net0 : σ) (data : Res (List Bytes × List Int))
    (cfg : ExpCfg) (curve : Res (EcGroup G)) (p q : Int) (w : Nat) (k1 k2 : ClientRand)
    (x : Exit G σ)
    (h : executeProtocol N net0 data (fun els vals => Client.init cfg curve els vals p q w) k1 k2 =
      .ok x) (hx : x.code = 0) :
    ∃ c m1 net1 net2 set m n v sk, x.client = some c ∧ c.finished = true ∧
      N.call net0 .start = (net1, true, .roundOne set) ∧
      N.call net1 (.roundOne m1) = (net2, true, .roundTwo m) ∧
      x.printed = some (n, v) ∧ n = m.size ∧
      PrivatePaillier.new cfg p q 2 = .ok sk ∧
      sk.decrypt (BN.ofBytes m.encryptedSum) = .ok c.sum ∧ v = c.sum.natAbs := by
  unfold executeProtocol at h
  cases data with
  | err e => simp only [Res.ok.injEq] at h; subst h; simp at hx
  | crash => cases h
  | ub => cases h
  | ok d =>
    obtain ⟨els, vals⟩ := d
    simp only [Res.bind_eq_ok] at h
    obtain ⟨c, hc, h⟩ := h
    simp only [Client.init, Res.bind_eq_ok, Res.pure_eq, Res.ok.injEq] at hc
    obtain ⟨K, -, rfl⟩ := hc
    simp only [Client.startProtocol, Net.after, Net.sendStatus] at h
    by_cases hs : (N.call net0 .start).2.1 = true
    swap
    · simp only [hs, Bool.false_eq_true, if_false, Res.ok.injEq] at h
      subst h
      simp at hx
    simp only [hs, if_true] at h
    -- second call
    set net1 := (N.call net0 .start).1 with hnet1
    generalize hm1 : (N.call net0 .start).2.2 = msg1 at h
    have hcall1 : N.call net0 .start = (net1, true, msg1) := by
      rw [← hm1, ← hs]
    cases msg1 with
    | other => simp [Client.handle] at h; subst h; simp at hx
    | empty => simp [Client.handle] at h; subst h; simp at hx
    | roundTwo m => simp [Client.handle, Client.decryptSum] at h; subst h; simp at hx
    | roundOne set1 =>
      simp only [Client.handle, Bool.false_eq_true, if_false, Client.reEncryptSet] at h
      cases hsk : PrivatePaillier.new cfg p q 2 with
      | err e => simp only [hsk, Res.ok.injEq] at h; subst h; simp at hx
      | crash => simp only [hsk] at h; cases h
      | ub => simp only [hsk] at h; cases h
      | ok sk =>
        simp only [hsk] at h
        generalize (do
          let pk ← BN.toBytes (p * q)
          let own ← Client.encryptLoop K sk vals k1.draws 0 els
          let re ← Client.reEncryptLoop K set1
          pure ({ publicKey := pk, encryptedSet := own, reencryptedSet := k1.sort re } :
            ClientRoundOne)) = R at h
        cases R with
        | err e => simp at h; subst h; simp at hx
        | crash => cases h
        | ub => cases h
        | ok m1 =>
          simp only [Net.sendStatus] at h
          by_cases hs2 : (N.call net1 (.roundOne m1)).2.1 = true
          swap
          · simp only [hs2, Bool.false_eq_true, if_false, Res.ok.injEq] at h
            subst h
            simp at hx
          simp only [hs2, if_true] at h
          generalize hm2 : (N.call net1 (.roundOne m1)).2.2 = msg2 at h
          have hcall2 : N.call net1 (.roundOne m1) =
              ((N.call net1 (.roundOne m1)).1, true, msg2) := by
            rw [← hm2, ← hs2]
          cases msg2 with
          | other => simp at h; subst h; simp at hx
          | empty => simp at h; subst h; simp at hx
          | roundOne set2 =>
            exfalso
            simp only [Bool.false_eq_true, if_false, hsk] at h
            generalize (do
              let pk ← BN.toBytes (p * q)
              let own ← Client.encryptLoop K sk vals k2.draws 0 els
              let re ← Client.reEncryptLoop K set2
              pure ({ publicKey := pk, encryptedSet := own, reencryptedSet := k2.sort re } :
                ClientRoundOne)) = R at h
            cases R with
            | err e => simp at h; subst h; simp at hx
            | crash => cases h
            | ub => cases h
            | ok m3 =>
              simp only [Net.sendStatus] at h
              by_cases hs3 : (N.call (N.call net1 (.roundOne m1)).1 (.roundOne m3)).2.1 = true
              · simp only [hs3, if_true, Client.printOutput, Bool.not_false, Res.ok.injEq] at h
                subst h; simp at hx
              · simp only [hs3, Bool.false_eq_true, if_false, Res.ok.injEq] at h
                subst h; simp at hx
          | roundTwo m =>
            simp only [Client.decryptSum] at h
            cases hd : sk.decrypt (BN.ofBytes m.encryptedSum) with
            | err e => simp [hd] at h; subst h; simp at hx
            | crash => simp [hd] at h
            | ub => simp [hd] at h
            | ok sum =>
              simp only [hd, Res.ok_bind, Res.pure_eq, Client.printOutput, Bool.not_true,
                Bool.false_eq_true, if_false] at h
              by_cases hlt : sum.natAbs < 2 ^ 64
              · have ht : BN.toIntValue sum = .ok sum.natAbs := by
                  rw [BN.toIntValue, if_pos hlt]
                simp only [ht, Res.ok_bind, Res.ok.injEq] at h
                subst h
                exact ⟨_, m1, net1, _, set1, m, m.size, sum.natAbs, sk, rfl, rfl, hcall1, hcall2,
                  rfl, rfl, rfl, hd, rfl⟩
              · have ht : BN.toIntValue sum = .err .invalidArgument := by
                  rw [BN.toIntValue, if_neg hlt]
                simp only [ht, Res.err_bind, Res.ok.injEq] at h
                subst h
                simp at hx

/-- **C66**, failures: the exit code is 0 or 1, and with 1 nothing is printed. -/
theorem C66_exit_one {σ : Type} (N : Net σ) (net0 : σ) (data : Res (List Bytes × List Int))
    (mk : List Bytes → List Int → Res (Client G)) (k1 k2 : ClientRand) (x : Exit G σ)
    (h : executeProtocol N net0 data mk k1 k2 = .ok x) :
    (x.code = 0 ∧ x.printed ≠ none) ∨ (x.code = 1 ∧ x.printed = none) := by
  unfold executeProtocol at h
  cases data with
  | err e => simp only [Res.ok.injEq] at h; subst h; simp
  | crash => cases h
  | ub => cases h
  | ok d =>
    obtain ⟨els, vals⟩ := d
    simp only [Res.bind_eq_ok] at h
    obtain ⟨c, hc, h⟩ := h
    split at h
    · cases h; simp
    · cases h
    · cases h
    split at h
    · cases h; simp
    · cases h
    · cases h
    split at h
    · cases h; simp
    · cases h
    · cases h
    split at h
    · cases h; simp
    · cases h
    · cases h
    · cases h; simp

/-- **C66**, transport and file failures: a file that cannot be read, or a failing first
remote call, gives exit code 1. -/
theorem C66_failed_read_or_start {σ : Type} (N : Net σ) (net0 : σ)
    (mk : List Bytes → List Int → Res (Client G)) (k1 k2 : ClientRand) :
    (∀ e, ∃ x, executeProtocol N net0 (.err e) mk k1 k2 = .ok x ∧ x.code = 1) ∧
    (∀ els vals c, mk els vals = .ok c → (N.call net0 .start).2.1 = false →
      ∃ x, executeProtocol N net0 (.ok (els, vals)) mk k1 k2 = .ok x ∧ x.code = 1) := by
  refine ⟨fun e => ⟨_, rfl, rfl⟩, fun els vals c hc hn => ?_⟩
  simp only [executeProtocol, hc, Res.ok_bind, Client.startProtocol, Net.sendStatus, hn,
    Bool.false_eq_true, if_false]
  exact ⟨_, rfl, rfl⟩

/-- A sink that accepts what is sent is as good as one that accepts everything. -/
theorem Client.handle_sink (c : Client G) (k : ClientRand) (m : ServerMsg)
    (sink : ClientMsg → Res Unit)
    (h : ∀ x ∈ (c.handle k accept m).sent, sink x = .ok ()) :
    c.handle k sink m = c.handle k accept m := by
  revert h
  unfold Client.handle
  by_cases hf : c.finished = true
  · simp [hf]
  simp only [hf, Bool.false_eq_true, if_false]
  cases m with
  | other => simp
  | empty => simp
  | roundTwo m => simp
  | roundOne set =>
    simp only []
    obtain ⟨c', r⟩ := c.reEncryptSet k set
    cases r with
    | ok x => intro h; simp at h ⊢; rw [h]; rfl
    | err e => simp
    | crash => simp
    | ub => simp

/-- **C66** with C01: the client program against this project's server exits with 0 and
prints the number of shared identifiers and the sum of the client's values on them, when
that sum fits 64 bits (and is below N²). -/
theorem C66_end_to_end {E : EcGroup G} {els : List Bytes} {vals : List Int}
    {inputs : List Bytes} {p q : Nat} (h : Setup E els vals inputs p q) (cfg cfg' : ExpCfg)
    (w : Nat) (rnds : Nat → ServerRand) (hr : ∀ i, (rnds i).Ok) (k1 k2 : ClientRand) (hk1 : k1.Ok)
    (hnc : els.Nodup)
    (hsmall : (((els.zip vals).filter fun t => decide (t.1 ∈ inputs)).map Prod.snd).sum <
      ((p * q : Nat) : Int) ^ 2)
    (h64 : (((els.zip vals).filter fun t => decide (t.1 ∈ inputs)).map Prod.snd).sum < 2 ^ 64) :
    ∃ x, executeProtocol (serviceNet rnds) (Server.init cfg' (.ok E) inputs, 0) (.ok (els, vals))
        (fun els vals => Client.init cfg (.ok E) els vals p q w) k1 k2 = .ok x ∧
      x.code = 0 ∧
      x.printed = some (((els.filter fun a => decide (a ∈ inputs)).length : Int),
        (((els.zip vals).filter fun t => decide (t.1 ∈ inputs)).map Prod.snd).sum.toNat) := by
  obtain ⟨K, hK, hinit⟩ := Client.init_ok h.lawful cfg els vals p q w
  obtain ⟨c', s', hrun, hf, hf', hsize, hsum, hprint⟩ := C01_intersection_sum h cfg cfg' w _ hinit
    (rnds 0) (rnds 1) k1 k2 (hr 0) (hr 1) hk1 hnc hsmall
  generalize hc : (⟨cfg, els, vals, p, q, K, none, 0, 0, false⟩ : Client G) = c at hrun hinit
  have hcall : ∀ (s : Server G) (i : Nat) (m : ClientMsg) (s1 : Server G) (r : ServerMsg),
      s.handle (rnds i) accept m = ⟨s1, [r], .ok ()⟩ →
      (serviceNet rnds).call (s, i) m = ((s1, i + 1), true, r) := by
    intro s i m s1 r hh
    have hp : s.prog (rnds i) m = .send r .ret := by
      unfold Server.prog
      have h' : s.handle (rnds i) (fun _ => .ok ()) m = _ := hh
      rw [h']
    have h' : s.handle (rnds i) (fun _ => .ok ()) m = _ := hh
    simp only [serviceNet, hp, h']
    rfl
  unfold honestRun at hrun
  simp only [Client.startProtocol] at hrun
  have ha : accept ClientMsg.start = .ok () := rfl
  rw [ha] at hrun
  simp only [] at hrun
  cases e1 : (Server.init cfg' (.ok E) inputs).handle (rnds 0) accept .start with
  | mk s1 sent1 st1 =>
    rw [e1] at hrun
    split at hrun
    swap
    · cases hrun
    rename_i s1 m1 heq1
    cases heq1
    cases e2 : c.handle k1 accept m1 with
    | mk c1 sent2 st2 =>
      rw [e2] at hrun
      split at hrun
      swap
      · cases hrun
      rename_i c1 m2 heq2
      cases heq2
      cases e3 : s1.handle (rnds 1) accept m2 with
      | mk s2 sent3 st3 =>
        rw [e3] at hrun
        split at hrun
        swap
        · cases hrun
        rename_i s2 m3 heq3
        cases heq3
        cases e4 : c1.handle k2 accept m3 with
        | mk c2 sent4 st4 =>
          rw [e4] at hrun
          split at hrun
          swap
          · cases hrun
          rename_i heq4
          cases heq4
          cases hrun
          have n1 := hcall _ 0 _ _ _ e1
          have n2 := hcall _ 1 _ _ _ e3
          have E2 : ∀ (sk : ClientSink (Server G × Nat)), sk.net = (s1, 0 + 1) →
              c.handle k1 ((serviceNet rnds).sendStatus sk) m1 = ⟨c1, [m2], .ok ()⟩ := by
            intro sk hsk
            rw [Client.handle_sink, e2]
            rw [e2]
            intro x hx
            rw [List.mem_singleton] at hx
            subst hx
            simp only [Net.sendStatus, hsk, n2, if_true]
          have E4 : ∀ (sink : ClientMsg → Res Unit),
              c1.handle k2 sink m3 = ⟨c', [], .ok ()⟩ := by
            intro sink
            rw [Client.handle_sink, e4]
            rw [e4]
            simp
          have hp := hprint (hsum ▸ h64)
          simp only [executeProtocol, hinit, Res.ok_bind, Client.startProtocol, Net.sendStatus,
            Net.after, n1, if_true]
          have E2' := E2 ⟨(s1, 0 + 1), m1⟩ rfl
          simp only [E2', n2, E4, hp]
          exact ⟨_, rfl, rfl, by simp only [hsize, hsum]⟩

/-- The toy run of C01 through the programs: exit code 0, two shared identifiers, sum 11;
and with a network that fails, exit code 1. -/
example : ∃ x, executeProtocol (serviceNet fun _ => toyServerRand)
      (Server.init ⟨false, 64⟩ (.ok toyEc) [[2], [3], [4]], 0) (.ok ([[1], [2], [4]], [5, 9, 2]))
      (fun els vals => Client.init ⟨true, 64⟩ (.ok toyEc) els vals 7 11 5) toyClientRand
      toyClientRand = .ok x ∧ x.code = 0 ∧ x.printed = some (2, 11) := by
  obtain ⟨x, h1, h2, h3⟩ := C66_end_to_end toySetup ⟨true, 64⟩ ⟨false, 64⟩ 5
    (fun _ => toyServerRand) (fun _ => toyServerRand_ok) toyClientRand toyClientRand
    toyClientRand_ok (by decide) (by decide) (by decide)
  exact ⟨x, h1, h2, by rw [h3]; decide⟩

example : ∃ x, executeProtocol (⟨fun _ _ => ((), false, .other)⟩ : Net Unit) ()
      (.ok ([[1], [2], [4]], [5, 9, 2]))
      (fun els vals => Client.init ⟨true, 64⟩ (.ok toyEc) els vals 7 11 5) toyClientRand
      toyClientRand = .ok x ∧ x.code = 1 := by
  obtain ⟨K, hK, hinit⟩ := Client.init_ok toyEc_lawful ⟨true, 64⟩ [[1], [2], [4]] [5, 9, 2] 7 11 5
  exact (C66_failed_read_or_start (⟨fun _ _ => ((), false, .other)⟩ : Net Unit) () _ _ _).2 _ _ _
    hinit rfl

end PJC.Protocol
