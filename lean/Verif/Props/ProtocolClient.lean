import Verif.Props.ProtocolState
/-
C05 - C07: the client's call histories, unexpected messages and failed requests.
-/
set_option linter.unusedSectionVars false
namespace PJC.Protocol
open PJC.Props

variable {G : Type} [AddCommGroup G] [DecidableEq G]

/-! ### Specification: call histories of a client object -/

/-- One call on the client object. -/
inductive ClientCall where
  | start (sink : ClientMsg → Res Unit)
  | handle (rnd : ClientRand) (sink : ClientMsg → Res Unit) (msg : ServerMsg)
  | print

/-- One call with what it did; `printed` are the two numbers put on the console. -/
structure ClientStep (G : Type) where
  call : ClientCall
  before : Client G
  after : Client G
  sent : List ClientMsg
  status : Res Unit
  printed : Option (Int × Nat)

def clientStep (c : Client G) : ClientCall → ClientStep G
  | .start sink =>
    let o := c.startProtocol sink
    ⟨.start sink, c, o.state, o.sent, o.status, none⟩
  | .handle rnd sink msg =>
    let o := c.handle rnd sink msg
    ⟨.handle rnd sink msg, c, o.state, o.sent, o.status, none⟩
  | .print =>
    match c.printOutput with
    | .ok r => ⟨.print, c, c, [], .ok (), some r⟩
    | .err e => ⟨.print, c, c, [], .err e, none⟩
    | .crash => ⟨.print, c, c, [], .crash, none⟩
    | .ub => ⟨.print, c, c, [], .ub, none⟩

/-- The calls of a history; one that does not return is the last. -/
def clientTrace : Client G → List ClientCall → List (ClientStep G)
  | _, [] => []
  | c, k :: ks =>
    match (clientStep c k).status with
    | .crash => [clientStep c k]
    | .ub => [clientStep c k]
    | _ => clientStep c k :: clientTrace (clientStep c k).after ks

/-- The call received a server-round-one message. -/
def ClientStep.GotRoundOne (st : ClientStep G) : Prop :=
  ∃ rnd sink set, st.call = .handle rnd sink (.roundOne set)

/-- The call accepted the server-round-two message `m`. -/
def ClientStep.AcceptedRoundTwo (st : ClientStep G) (m : ServerRoundTwo) : Prop :=
  (∃ rnd sink, st.call = .handle rnd sink (.roundTwo m)) ∧ st.status = .ok ()

/-- In this history a round-one message was received and, later, round-two message `m` was
accepted. -/
def RoundsDone (h : List (ClientStep G)) (m : ServerRoundTwo) : Prop :=
  ∃ h1 a h2 b h3, h = h1 ++ a :: h2 ++ b :: h3 ∧ a.GotRoundOne ∧ b.AcceptedRoundTwo m

theorem clientTrace_cons (c : Client G) (k : ClientCall) (ks : List ClientCall) :
    ∃ rest, clientTrace c (k :: ks) = clientStep c k :: rest ∧
      (rest = [] ∨ rest = clientTrace (clientStep c k).after ks) := by
  simp only [clientTrace]
  split
  · exact ⟨_, rfl, .inl rfl⟩
  · exact ⟨_, rfl, .inl rfl⟩
  · exact ⟨_, rfl, .inr rfl⟩

/-- Invariant linking a client object to its history. -/
structure ClientInv (cfg : ExpCfg) (p q : Int) (h : List (ClientStep G)) (c : Client G) :
    Prop where
  cfg_eq : c.cfg = cfg
  p_eq : c.p = p
  q_eq : c.q = q
  key : ∀ sk, c.paillier = some sk →
    PrivatePaillier.new cfg p q 2 = .ok sk ∧ ∃ st ∈ h, st.GotRoundOne
  fin : c.finished = true → ∃ m, RoundsDone h m ∧ ∃ sk, PrivatePaillier.new cfg p q 2 = .ok sk ∧
    sk.decrypt (BN.ofBytes m.encryptedSum) = .ok c.sum ∧ c.size = m.size

theorem RoundsDone.append {h : List (ClientStep G)} {m : ServerRoundTwo} (hd : RoundsDone h m)
    (st : ClientStep G) : RoundsDone (h ++ [st]) m := by
  obtain ⟨h1, a, h2, b, h3, rfl, ha, hb⟩ := hd
  exact ⟨h1, a, h2, b, h3 ++ [st], by simp, ha, hb⟩

theorem ClientInv.same {cfg : ExpCfg} {p q : Int} {h : List (ClientStep G)} {c c' : Client G}
    (hi : ClientInv cfg p q h c) (st : ClientStep G) (e : c' = c) :
    ClientInv cfg p q (h ++ [st]) c' := by
  subst e
  refine ⟨hi.cfg_eq, hi.p_eq, hi.q_eq, fun sk hsk => ?_, fun hf => ?_⟩
  · obtain ⟨h1, st', hst, h2⟩ := hi.key sk hsk
    exact ⟨h1, st', by simp [hst], h2⟩
  · obtain ⟨m, hm, rest⟩ := hi.fin hf
    exact ⟨m, hm.append st, rest⟩

theorem ClientInv.step {cfg : ExpCfg} {p q : Int} {h : List (ClientStep G)} {c : Client G}
    (hi : ClientInv cfg p q h c) (k : ClientCall) :
    ClientInv cfg p q (h ++ [clientStep c k]) (clientStep c k).after := by
  cases k with
  | start sink => exact hi.same _ rfl
  | print =>
    apply hi.same
    simp only [clientStep]
    cases c.printOutput <;> rfl
  | handle rnd sink msg =>
    by_cases hf : c.finished = true
    · apply hi.same
      simp [clientStep, Client.handle, hf]
    have hf' : c.finished = false := by simpa using hf
    cases msg with
    | other => apply hi.same; simp [clientStep, Client.handle, hf']
    | empty => apply hi.same; simp [clientStep, Client.handle, hf']
    | roundOne set =>
      have hst : (clientStep c (.handle rnd sink (.roundOne set))).GotRoundOne :=
        ⟨rnd, sink, set, rfl⟩
      cases hsk : PrivatePaillier.new c.cfg c.p c.q 2 with
      | ok sk =>
        have e : (clientStep c (.handle rnd sink (.roundOne set))).after =
            { c with paillier := some sk } := by
          simp only [clientStep, Client.handle, hf', Bool.false_eq_true, if_false,
            Client.reEncryptSet, hsk]
          split <;> simp_all
        rw [e]
        refine ⟨hi.cfg_eq, hi.p_eq, hi.q_eq, fun sk' hsk' => ?_, fun hfin => absurd hfin hf⟩
        simp only [Option.some.injEq] at hsk'
        subst hsk'
        rw [← hi.cfg_eq, ← hi.p_eq, ← hi.q_eq]
        exact ⟨hsk, _, by simp, hst⟩
      | err e => apply hi.same; simp [clientStep, Client.handle, hf', Client.reEncryptSet, hsk]
      | crash => apply hi.same; simp [clientStep, Client.handle, hf', Client.reEncryptSet, hsk]
      | ub => apply hi.same; simp [clientStep, Client.handle, hf', Client.reEncryptSet, hsk]
    | roundTwo m =>
      cases hd : c.decryptSum m with
      | ok r =>
        obtain ⟨n, sum⟩ := r
        obtain ⟨sk, hsk⟩ : ∃ sk, c.paillier = some sk := by
          cases hp : c.paillier with
          | none => simp [Client.decryptSum, hp] at hd
          | some sk => exact ⟨sk, rfl⟩
        have hd' := hd
        simp only [Client.decryptSum, hsk, Res.bind_eq_ok, Res.pure_eq, Res.ok.injEq,
          Prod.mk.injEq] at hd'
        obtain ⟨sum', hdec, hsz, rfl⟩ := hd'
        have e : (clientStep c (.handle rnd sink (.roundTwo m))).after =
            { c with size := n, sum := sum', finished := true } := by
          simp [clientStep, Client.handle, hf', hd]
        have est : (clientStep c (.handle rnd sink (.roundTwo m))).status = .ok () := by
          simp [clientStep, Client.handle, hf', hd]
        obtain ⟨hnew, st, hst, hone⟩ := hi.key sk hsk
        obtain ⟨l1, l2, rfl⟩ := List.append_of_mem hst
        rw [e]
        refine ⟨hi.cfg_eq, hi.p_eq, hi.q_eq, fun sk' hsk' => ?_, fun _ => ?_⟩
        · obtain ⟨a1, b1, b2, b3⟩ := hi.key sk' hsk'
          exact ⟨a1, b1, by simp at b2 ⊢; tauto, b3⟩
        · exact ⟨m, ⟨l1, st, l2, _, [], rfl, hone, ⟨rnd, sink, rfl⟩, est⟩, sk, hnew, hdec,
            hsz.symm⟩
      | err e => apply hi.same; simp [clientStep, Client.handle, hf', hd]
      | crash => apply hi.same; simp [clientStep, Client.handle, hf', hd]
      | ub => apply hi.same; simp [clientStep, Client.handle, hf', hd]

theorem ClientInv.trace {cfg : ExpCfg} {p q : Int} (calls : List ClientCall) :
    ∀ (h : List (ClientStep G)) (c : Client G), ClientInv cfg p q h c →
    ∀ (i : Nat) (hi : i < (clientTrace c calls).length),
      ClientInv cfg p q (h ++ (clientTrace c calls).take i) (clientTrace c calls)[i].before ∧
      (∃ c' k, ClientInv cfg p q (h ++ (clientTrace c calls).take i) c' ∧
        (clientTrace c calls)[i] = clientStep c' k) ∧
      ClientInv cfg p q (h ++ (clientTrace c calls).take (i + 1)) (clientTrace c calls)[i].after := by
  induction calls with
  | nil => intro h c _ i hi; simp [clientTrace] at hi
  | cons k ks ih =>
    intro h c hinv
    obtain ⟨rest, e, hr⟩ := clientTrace_cons c k ks
    rw [e]
    have hb : (clientStep c k).before = c := by
      cases k with
      | start => rfl
      | handle => rfl
      | print => simp only [clientStep]; cases c.printOutput <;> rfl
    intro i hi
    cases i with
    | zero =>
      simp only [List.getElem_cons_zero, List.take_zero, List.append_nil, List.take_succ_cons, hb]
      exact ⟨hinv, ⟨c, k, hinv, rfl⟩, hinv.step k⟩
    | succ i =>
      rcases hr with rfl | rfl
      · simp at hi
      · have := ih _ _ (hinv.step k) i (by simpa using hi)
        simpa using this

theorem Client.init_inv {cfg : ExpCfg} {curve : Res (EcGroup G)} {els : List Bytes}
    {vals : List Int} {p q : Int} {w : Nat} {c : Client G}
    (hc : Client.init cfg curve els vals p q w = .ok c) : ClientInv cfg p q [] c := by
  simp only [Client.init, Res.bind_eq_ok, Res.pure_eq, Res.ok.injEq] at hc
  obtain ⟨K, -, rfl⟩ := hc
  exact ⟨rfl, rfl, rfl, by simp, by simp⟩

theorem clientTrace_finished (calls : List ClientCall) : ∀ (c : Client G), c.finished = true →
    ∀ st ∈ clientTrace c calls, st.after = c ∧
      ∀ rnd sink msg, st.call = .handle rnd sink msg →
        st.status = .err .invalidArgument ∧ st.sent = [] := by
  induction calls with
  | nil => intro c _ st h; simp [clientTrace] at h
  | cons k ks ih =>
    intro c hf st hst
    obtain ⟨rest, e, hr⟩ := clientTrace_cons c k ks
    rw [e] at hst
    have hone : (clientStep c k).after = c ∧ ∀ rnd sink msg,
        (clientStep c k).call = .handle rnd sink msg →
        (clientStep c k).status = .err .invalidArgument ∧ (clientStep c k).sent = [] := by
      cases k with
      | start sink => simp [clientStep, Client.startProtocol]
      | handle rnd sink msg => simp [clientStep, Client.handle, hf]
      | print => simp only [clientStep]; cases c.printOutput <;> simp
    rcases List.mem_cons.1 hst with rfl | hst
    · exact hone
    · rcases hr with rfl | rfl
      · simp at hst
      · rw [hone.1] at hst
        exact ih c hf st hst

/-- **C05**.  Over every history of calls on a fresh client: finished means that a
round-one message was received and later a round-two message `m` accepted, and the object
holds the size in `m` and the decryption of the sum in `m` under the client's own key. -/
theorem C05_finished (cfg : ExpCfg) (curve : Res (EcGroup G)) (els : List Bytes)
    (vals : List Int) (p q : Int) (w : Nat) (c : Client G)
    (hc : Client.init cfg curve els vals p q w = .ok c) (calls : List ClientCall) :
    let tr := clientTrace c calls
    ∀ (i : Nat) (hi : i < tr.length), tr[i].after.finished = true →
      ∃ m, RoundsDone (tr.take (i + 1)) m ∧
        ∃ sk, PrivatePaillier.new cfg p q 2 = .ok sk ∧
          sk.decrypt (BN.ofBytes m.encryptedSum) = .ok tr[i].after.sum ∧
          tr[i].after.size = m.size := by
  intro tr i hi hf
  have := (ClientInv.trace calls [] c (Client.init_inv hc) i hi).2.2
  simpa using this.fin hf

/-- **C05**, end: once finished, the object never changes, and every message is refused. -/
theorem C05_refuses_after_finishing (c : Client G) (calls : List ClientCall) :
    let tr := clientTrace c calls
    ∀ (i j : Nat) (hi : i < tr.length) (hj : j < tr.length), i < j →
      tr[i].after.finished = true → tr[j].after = tr[i].after ∧
      ∀ rnd sink msg, tr[j].call = .handle rnd sink msg →
        tr[j].status = .err .invalidArgument ∧ tr[j].sent = [] := by
  intro tr
  simp only [tr]
  clear tr
  induction calls generalizing c with
  | nil => intro i j hi; simp [clientTrace] at hi
  | cons k ks ih =>
    obtain ⟨rest, e, hr⟩ := clientTrace_cons c k ks
    rw [e]
    intro i j hi hj hij hf
    obtain ⟨j, rfl⟩ : ∃ k, j = k + 1 := ⟨j - 1, by omega⟩
    rcases hr with rfl | rfl
    · simp at hj
    cases i with
    | zero =>
      simp only [List.getElem_cons_zero, List.getElem_cons_succ] at hf ⊢
      exact clientTrace_finished ks _ hf _ (List.getElem_mem _)
    | succ i =>
      simp only [List.getElem_cons_succ] at hf ⊢
      exact ih _ i j (by simpa using hi) (by simpa using hj) (by omega) hf

/-- **C05**, output: `PrintOutput` prints only after the rounds are done, and what it
prints are the size and the decrypted sum of the accepted round-two message. -/
theorem C05_printed (cfg : ExpCfg) (curve : Res (EcGroup G)) (els : List Bytes)
    (vals : List Int) (p q : Int) (w : Nat) (c : Client G)
    (hc : Client.init cfg curve els vals p q w = .ok c) (calls : List ClientCall) :
    let tr := clientTrace c calls
    ∀ (i : Nat) (hi : i < tr.length) (n : Int) (v : Nat), tr[i].printed = some (n, v) →
      ∃ m, RoundsDone (tr.take i) m ∧ n = m.size ∧
        ∃ sk x, PrivatePaillier.new cfg p q 2 = .ok sk ∧
          sk.decrypt (BN.ofBytes m.encryptedSum) = .ok x ∧ v = x.natAbs := by
  intro tr i hi n v hpr
  obtain ⟨-, ⟨c', k, hinv, e⟩, -⟩ := ClientInv.trace calls [] c (Client.init_inv hc) i hi
  simp only [List.nil_append] at hinv
  change (clientTrace c calls)[i].printed = some (n, v) at hpr
  rw [e] at hpr
  cases k with
  | start sink => simp [clientStep] at hpr
  | handle rnd sink msg => simp [clientStep] at hpr
  | print =>
    by_cases hf : c'.finished = true
    · obtain ⟨m, hm, sk, hsk, hdec, hsz⟩ := hinv.fin hf
      simp only [clientStep, Client.printOutput, hf, Bool.not_true, Bool.false_eq_true,
        if_false, BN.toIntValue] at hpr
      split at hpr
      · rename_i r hr
        simp only [Option.some.injEq] at hpr
        subst hpr
        by_cases hlt : c'.sum.natAbs < 2 ^ 64
        · simp only [hlt, if_true, Res.ok_bind, Res.pure_eq, Res.ok.injEq, Prod.mk.injEq] at hr
          exact ⟨m, hm, by rw [← hr.1, hsz], sk, _, hsk, hdec, hr.2.symm⟩
        · simp only [hlt, if_false, Res.err_bind] at hr
          cases hr
      · simp at hpr
      · simp at hpr
      · simp at hpr
    · simp [clientStep, Client.printOutput, hf] at hpr

/-- **C05**: before the end nothing is printed: the answer is INVALID_ARGUMENT. -/
theorem C05_no_early_output (c : Client G) (h : c.finished = false) :
    c.printOutput = .err .invalidArgument := by
  simp [Client.printOutput, h]

/-! ### C06 -/

/-- C06 in full: once a client has answered a server-round-one message, a further
server-round-one message is refused. -/
def C06Statement (c : Client G) : Prop :=
  ∀ (rnd rnd' : ClientRand) (set set' : List EncElement),
    (c.handle rnd accept (.roundOne set)).status = .ok () →
    ((c.handle rnd accept (.roundOne set)).state.handle rnd' accept (.roundOne set')).status =
      .err .invalidArgument

/-- C06 does not hold: a client with an empty list and usable primes answers the same
round-one message again. -/
theorem C06_fails : ∃ c : Client (ZMod 11),
    Client.init ⟨true, 64⟩ (.ok toyEc) [] [] 7 11 5 = .ok c ∧ ¬ C06Statement c := by
  obtain ⟨K, hK, hinit⟩ := Client.init_ok toyEc_lawful ⟨true, 64⟩ [] [] 7 11 5
  refine ⟨_, hinit, ?_⟩
  intro h
  obtain ⟨-, sk, hsk, -⟩ := C11_keys_exist ⟨true, 64⟩ 7 11 2 0 toySetup.safe_p toySetup.safe_q
    (by norm_num) (by norm_num) (by norm_num) toySetup.gen_p toySetup.gen_q (by norm_num)
  have hsk' : PrivatePaillier.new ⟨true, 64⟩ 7 11 2 = .ok sk := hsk
  have hpk : BN.toBytes ((7 : Int) * 11) = .ok [77] := by decide
  have := h toyClientRand toyClientRand [] [] (by
    simp only [Client.handle, Client.reEncryptSet, hsk', hpk, Client.encryptLoop,
      Client.reEncryptLoop, accept, Bool.false_eq_true, if_false, Res.ok_bind, Res.pure_eq])
  simp only [Client.handle, Client.reEncryptSet, hsk', hpk, Client.encryptLoop,
      Client.reEncryptLoop, accept, Bool.false_eq_true, if_false, Res.ok_bind, Res.pure_eq] at this
  cases this

/-- **C06**, what holds: over every history, a message of another protocol, an empty one, a
round-two message before any round-one message, and any message after the end are refused
with INVALID_ARGUMENT, nothing is sent and the object does not change.  Missing: a
round-one message is accepted any number of times before the end. -/
theorem C06_unexpected_messages_partial (cfg : ExpCfg) (curve : Res (EcGroup G))
    (els : List Bytes) (vals : List Int) (p q : Int) (w : Nat) (c : Client G)
    (hc : Client.init cfg curve els vals p q w = .ok c) (calls : List ClientCall) :
    let tr := clientTrace c calls
    ∀ (i : Nat) (hi : i < tr.length) (rnd : ClientRand) (sink : ClientMsg → Res Unit)
      (msg : ServerMsg), tr[i].call = .handle rnd sink msg →
      (msg = .other ∨ msg = .empty ∨ tr[i].before.finished = true ∨
        ((∃ m, msg = .roundTwo m) ∧ ∀ st ∈ tr.take i, ¬ st.GotRoundOne)) →
      tr[i].status = .err .invalidArgument ∧ tr[i].sent = [] ∧ tr[i].after = tr[i].before := by
  intro tr i hi rnd sink msg hcall hcase
  obtain ⟨-, ⟨c', k, hinv, e⟩, -⟩ := ClientInv.trace calls [] c (Client.init_inv hc) i hi
  simp only [List.nil_append] at hinv
  have hcase' : msg = .other ∨ msg = .empty ∨ c'.finished = true ∨ c'.paillier = none ∧
      ∃ m, msg = .roundTwo m := by
    rcases hcase with h | h | h | ⟨h1, h2⟩
    · exact .inl h
    · exact .inr (.inl h)
    · refine .inr (.inr (.inl ?_))
      have hb : tr[i].before = c' := by
        change (clientTrace c calls)[i].before = c'
        rw [e]
        cases k with
        | start => rfl
        | handle => rfl
        | print => simp only [clientStep]; cases c'.printOutput <;> rfl
      rw [← hb]; exact h
    · refine .inr (.inr (.inr ⟨?_, h1⟩))
      cases hp : c'.paillier with
      | none => rfl
      | some sk =>
        obtain ⟨-, st, hst, hone⟩ := hinv.key sk hp
        exact absurd hone (h2 st hst)
  change (clientTrace c calls)[i].call = _ at hcall
  show (clientTrace c calls)[i].status = _ ∧ (clientTrace c calls)[i].sent = [] ∧
    (clientTrace c calls)[i].after = (clientTrace c calls)[i].before
  rw [e] at hcall ⊢
  cases k with
  | start s => simp [clientStep] at hcall
  | print => simp only [clientStep] at hcall; revert hcall; cases c'.printOutput <;> simp
  | handle r s m =>
    simp only [clientStep, ClientCall.handle.injEq] at hcall
    obtain ⟨rfl, rfl, rfl⟩ := hcall
    by_cases hf : c'.finished = true
    · simp [clientStep, Client.handle, hf]
    · rcases hcase' with rfl | rfl | h | ⟨h1, m, rfl⟩
      · simp [clientStep, Client.handle, hf]
      · simp [clientStep, Client.handle, hf]
      · exact absurd h hf
      · simp [clientStep, Client.handle, hf, Client.decryptSum, h1]

/-! ### C07 -/

/-- **C07**.  When the sink takes every message, a client-round-one message answered with
an error leaves the server object unchanged and nothing is sent. -/
theorem C07_failed_request (s : Server G) (rnd : ServerRand) (m : ClientRoundOne) (e : Code)
    (h : (s.handle rnd accept (.roundOne m)).status = .err e) :
    (s.handle rnd accept (.roundOne m)).state = s ∧
    (s.handle rnd accept (.roundOne m)).sent = [] := by
  unfold Server.handle at h ⊢
  by_cases hf : s.finished = true
  · simp [hf]
  · simp only [hf, Bool.false_eq_true, if_false] at h ⊢
    cases hr : s.computeIntersection rnd m <;> simp_all [accept]

/-- **C07**, histories: after any number of failing client-round-one messages, every
further call on the server has exactly the outcome it would have had without them. -/
theorem C07_history (s : Server G) (fails : List (ServerRand × ClientRoundOne))
    (hf : ∀ st ∈ serverTrace s (fails.map fun f => ⟨f.1, accept, .roundOne f.2⟩),
      ∃ e, st.status = .err e) (calls : List ServerCall) :
    ∃ pre, pre.length = fails.length ∧ (∀ st ∈ pre, st.sent = [] ∧ st.state = s) ∧
      serverTrace s ((fails.map fun f => ⟨f.1, accept, .roundOne f.2⟩) ++ calls) =
        pre ++ serverTrace s calls := by
  induction fails with
  | nil => exact ⟨[], rfl, by simp, rfl⟩
  | cons f fs ih =>
    have hmem : s.handle f.1 accept (.roundOne f.2) ∈
        serverTrace s ((f :: fs).map fun f => ⟨f.1, accept, .roundOne f.2⟩) := by
      obtain ⟨rest, e, -⟩ := serverTrace_cons s ⟨f.1, accept, .roundOne f.2⟩
        (fs.map fun f => ⟨f.1, accept, .roundOne f.2⟩)
      rw [List.map_cons, e]
      simp
    obtain ⟨e, he⟩ := hf _ hmem
    obtain ⟨h1, h2⟩ := C07_failed_request s f.1 f.2 e he
    have hstep : ∀ cs, serverTrace s (⟨f.1, accept, .roundOne f.2⟩ :: cs) =
        s.handle f.1 accept (.roundOne f.2) :: serverTrace s cs := by
      intro cs
      simp only [serverTrace, he, h1]
    obtain ⟨pre, p1, p2, p3⟩ := ih (fun st hst => hf st (by
      rw [List.map_cons, hstep]; exact List.mem_cons_of_mem _ hst))
    refine ⟨s.handle f.1 accept (.roundOne f.2) :: pre, by simp [p1], ?_, ?_⟩
    · intro st hst
      rcases List.mem_cons.1 hst with rfl | hst
      · exact ⟨h2, h1⟩
      · exact p2 st hst
    · rw [List.map_cons, List.cons_append, hstep, p3]
      rfl

/-- C07, the sink: when the sink refuses the reply, the call fails with the sink's error,
but the server counts as finished. -/
theorem C07_sink_failure_still_finishes (s : Server G) (rnd : ServerRand) (m : ClientRoundOne)
    (sink : ServerMsg → Res Unit) (r : ServerRoundTwo) (e : Code) (hf : s.finished = false)
    (hr : (s.handle rnd accept (.roundOne m)).sent = [.roundTwo r])
    (hs : sink (.roundTwo r) = .err e) :
    (s.handle rnd sink (.roundOne m)).status = .err e ∧
    (s.handle rnd sink (.roundOne m)).state.finished = true := by
  simp only [Server.handle, hf, Bool.false_eq_true, if_false] at hr ⊢
  cases h : s.computeIntersection rnd m with
  | ok r' =>
    simp only [h, List.cons.injEq, ServerMsg.roundTwo.injEq, and_true] at hr
    subst hr
    exact ⟨hs, rfl⟩
  | err e => simp [h] at hr
  | crash => simp [h] at hr
  | ub => simp [h] at hr

end PJC.Protocol
