import Verif.Model.Protocol
/-
Model of the server program while requests are being served:
/repo/private_join_and_compute/server.cc:39-86 (`RunServer`),
private_join_and_compute_rpc_impl.{h,cc} (one object for all requests, no lock) and
server_impl.{h,cc} cut into the steps between accesses to shared memory.

gRPC's synchronous server runs `Handle` calls on several threads at once.  What the threads
share is the server object (`ec_cipher_`, `protocol_finished_`, the `Context` behind
`ctx_`) and the cipher object behind `ec_cipher_` (which owns a `Context` of its own, whose
`BN_CTX` every operation changes).  `inputs_` is shared too but never written.

Memory is sequentially consistent here.  That is an optimistic simplification: C++ gives no
meaning at all to a program with a data race (see `Sys.Racy`).
-/
namespace PJC.Conc
open PJC.Protocol

variable {G : Type} [AddCommGroup G] [DecidableEq G]

/-- Shared memory: server_impl.h:74-86 and the cipher objects ever stored in `ec_cipher_`
(addresses are positions; `none` marks a deleted object).  `fault` records that a deleted
object or a null pointer has been used. -/
structure Mem (G : Type) where
  cfg : ExpCfg
  curve : Res (EcGroup G)
  inputs : List Bytes
  ptr : Option Nat
  heap : List (Option (EcCipher G))
  finished : Bool
  fault : Bool

/-- server_impl.h:42-44: the object when the service starts. -/
def Mem.init (cfg : ExpCfg) (curve : Res (EcGroup G)) (inputs : List Bytes) : Mem G :=
  { cfg := cfg, curve := curve, inputs := inputs, ptr := none, heap := [], finished := false,
    fault := false }

/-- The object behind a pointer value, if it is one. -/
def Mem.deref (M : Mem G) (p : Option Nat) : Option (EcCipher G) :=
  p.bind fun a => (M.heap[a]?).join

/-- server_impl.cc:46 `ec_cipher_ = std::move(...)`: the new object is stored and the old
one, if any, deleted. -/
def Mem.store (M : Mem G) (K : EcCipher G) : Mem G :=
  let heap := match M.ptr with
    | none => M.heap
    | some a => M.heap.set a none
  { M with ptr := some heap.length, heap := heap ++ [some K] }

/-- Where a thread inside `Handle` is, with its local variables.  One constructor for each
step that touches shared memory. -/
inductive Pc (G : Type) where
  /-- server_impl.cc:130, before `protocol_finished()` is read. -/
  | entry
  /-- server_impl.cc:37, before `ec_cipher_ != nullptr` is evaluated. -/
  | startCheck
  /-- server_impl.cc:46, before the assignment. -/
  | store (K : EcCipher G)
  /-- server_impl.cc:49-52, before `ec_cipher_` is read for the next identifier. -/
  | encLoad (todo : List Bytes) (acc : List EncElement)
  /-- server_impl.cc:52, before the object `p` points to encrypts `a`. -/
  | encUse (p : Option Nat) (a : Bytes) (todo : List Bytes) (acc : List EncElement)
  /-- server_impl.cc:65, before `ec_cipher_ == nullptr` is evaluated. -/
  | roundCheck (m : ClientRoundOne)
  /-- server_impl.cc:70-71, before `ctx_` is used to set up the public key. -/
  | paillier (m : ClientRoundOne)
  /-- server_impl.cc:77-81, before `ec_cipher_` is read for the next element. -/
  | reLoad (m : ClientRoundOne) (pk : PublicPaillier) (todo acc : List EncElement)
  /-- server_impl.cc:81, before the object `p` points to re-encrypts `e`. -/
  | reUse (m : ClientRoundOne) (pk : PublicPaillier) (p : Option Nat) (e : EncElement)
      (todo acc : List EncElement)
  /-- server_impl.cc:108-122, before `ctx_` is used to add up. -/
  | total (m : ClientRoundOne) (pk : PublicPaillier) (acc : List EncElement)
  /-- server_impl.cc:167, before `protocol_finished_ = true`. -/
  | mark (r : ServerRoundTwo)
  /-- server_impl.cc:174, before `Send`. -/
  | send (r : ServerMsg)
  /-- The call is over: the messages sent and the status. -/
  | done (sent : List ServerMsg) (status : Res Unit)

/-- One `Handle` call: the request, its random draws and where it is. -/
structure Thread (G : Type) where
  rnd : ServerRand
  msg : ClientMsg
  pc : Pc G

/-- A call that fails: nothing sent, the failure returned. -/
def Pc.failed {α : Type} : Res α → Pc G
  | .ok _ => .done [] .ub
  | .err c => .done [] (.err c)
  | .crash => .done [] .crash
  | .ub => .done [] .ub

/-- server_impl.cc:127-175, 35-60, 62-125: one step of a call. -/
def Thread.step (M : Mem G) (t : Thread G) : Mem G × Thread G :=
  match t.pc with
  | .entry =>
    if M.finished then (M, { t with pc := .done [] (.err .invalidArgument) })
    else
      match t.msg with
      | .other => (M, { t with pc := .done [] (.err .invalidArgument) })
      | .empty => (M, { t with pc := .done [] (.err .invalidArgument) })
      | .start => (M, { t with pc := .startCheck })
      | .roundOne m => (M, { t with pc := .roundCheck m })
  | .startCheck =>
    match M.ptr with
    | some _ => (M, { t with pc := .done [] (.err .invalidArgument) })
    | none =>
      match EcCipher.createWithNewKey M.curve .sha256 t.rnd.keyWord with
      | .ok K => (M, { t with pc := .store K })
      | r => (M, { t with pc := .failed r })
  | .store K => (M.store K, { t with pc := .encLoad M.inputs [] })
  | .encLoad [] acc => (M, { t with pc := .send (.roundOne acc) })
  | .encLoad (a :: todo) acc => (M, { t with pc := .encUse M.ptr a todo acc })
  | .encUse p a todo acc =>
    match M.deref p with
    | none => ({ M with fault := true }, { t with pc := .done [] .ub })
    | some K =>
      match K.encrypt a with
      | .ok e => (M, { t with pc := .encLoad todo (acc ++ [{ element := e, data := [] }]) })
      | r => (M, { t with pc := .failed r })
  | .roundCheck m =>
    match M.ptr with
    | none => (M, { t with pc := .done [] (.err .invalidArgument) })
    | some _ => (M, { t with pc := .paillier m })
  | .paillier m =>
    match PublicPaillier.new M.cfg (t.rnd.relPrime (BN.ofBytes m.publicKey))
        (BN.ofBytes m.publicKey) 2 with
    | .ok pk => (M, { t with pc := .reLoad m pk m.encryptedSet [] })
    | r => (M, { t with pc := .failed r })
  | .reLoad m pk [] acc => (M, { t with pc := .total m pk acc })
  | .reLoad m pk (e :: todo) acc => (M, { t with pc := .reUse m pk M.ptr e todo acc })
  | .reUse m pk p e todo acc =>
    match M.deref p with
    | none => ({ M with fault := true }, { t with pc := .done [] .ub })
    | some K =>
      match K.reEncrypt e.element with
      | .ok r => (M, { t with pc := .reLoad m pk todo (acc ++ [{ element := r, data := e.data }]) })
      | r => (M, { t with pc := .failed r })
  | .total m pk acc =>
    let inter := setIntersection (t.rnd.sortClient acc) (t.rnd.sortServer m.reencryptedSet)
    match pk.encrypt 0 (t.rnd.lessThan (BN.ofBytes m.publicKey)) with
    | .ok zero =>
      match BN.toBytes (inter.foldl (fun s e => pk.add s (BN.ofBytes e.data)) zero) with
      | .ok bytes => (M, { t with pc := .mark { size := inter.length, encryptedSum := bytes } })
      | r => (M, { t with pc := .failed r })
    | r => (M, { t with pc := .failed r })
  | .mark r => ({ M with finished := true }, { t with pc := .send (.roundTwo r) })
  | .send r => (M, { t with pc := .done [r] (.ok ()) })
  | .done sent st => (M, { t with pc := .done sent st })

/-! ### Accesses and data races -/

/-- Shared locations. -/
inductive Loc where
  /-- `protocol_finished_`. -/
  | finished
  /-- `ec_cipher_`. -/
  | cipherPtr
  /-- The cipher object at an address (with the `Context` it owns). -/
  | object (a : Nat)
  /-- The `Context` behind `ctx_`. -/
  | context
  deriving DecidableEq

/-- An access: what, and whether it writes. -/
structure Access where
  loc : Loc
  write : Bool
  deriving DecidableEq

def readOf (l : Loc) : Access := ⟨l, false⟩
def writeOf (l : Loc) : Access := ⟨l, true⟩

/-- The accesses of the next step of a call (citations at `Pc`).  Operations on `BIGNUM`s
take scratch variables from the `BN_CTX` of their `Context` (context.h:70, 167) and so write
it. -/
def Pc.accesses (M : Mem G) : Pc G → List Access
  | .entry => [readOf .finished]
  | .startCheck => [readOf .cipherPtr]
  | .store _ =>
    match M.ptr with
    | none => [writeOf .cipherPtr]
    | some a => [writeOf .cipherPtr, writeOf (.object a)]
  | .encLoad [] _ => []
  | .encLoad (_ :: _) _ => [readOf .cipherPtr]
  | .encUse p _ _ _ =>
    match p with
    | none => []
    | some a => [writeOf (.object a)]
  | .roundCheck _ => [readOf .cipherPtr]
  | .paillier _ => [writeOf .context]
  | .reLoad _ _ [] _ => []
  | .reLoad _ _ (_ :: _) _ => [readOf .cipherPtr]
  | .reUse _ _ p _ _ _ =>
    match p with
    | none => []
    | some a => [writeOf (.object a)]
  | .total _ _ _ => [writeOf .context]
  | .mark _ => [writeOf .finished]
  | .send _ => []
  | .done _ _ => []

/-! ### The program -/

/-- server.cc:39-86: the service with its calls (a call that has not arrived yet is one
that has not taken a step) and the main thread, which is `polling` until the loop of
server.cc:76-78 ends. -/
structure Sys (G : Type) where
  mem : Mem G
  threads : List (Thread G)
  polling : Bool

/-- Who takes the next step. -/
inductive Who where
  | main
  | call (i : Nat)
  deriving DecidableEq

/-- A call that took the process down with it. -/
def Thread.fatal (t : Thread G) : Bool :=
  match t.pc with
  | .done _ .crash => true
  | .done _ .ub => true
  | _ => false

/-- One step of the program; nothing happens once the process is gone. -/
def Sys.step (S : Sys G) (w : Who) : Sys G :=
  if S.threads.any Thread.fatal then S
  else
    match w with
    | .main => { S with polling := S.polling && !S.mem.finished }
    | .call i =>
      match S.threads[i]? with
      | none => S
      | some t =>
        let (M, t') := t.step S.mem
        { S with mem := M, threads := S.threads.set i t' }

/-- A schedule: any order of steps. -/
def Sys.run (S : Sys G) (sched : List Who) : Sys G := sched.foldl Sys.step S

/-- The program with the given requests, before any has arrived. -/
def Sys.init (cfg : ExpCfg) (curve : Res (EcGroup G)) (inputs : List Bytes)
    (calls : List (ServerRand × ClientMsg)) : Sys G :=
  { mem := .init cfg curve inputs
    threads := calls.map fun c => { rnd := c.1, msg := c.2, pc := .entry }
    polling := true }

/-- The accesses the next step of `w` makes (server.cc:76: the loop condition reads
`protocol_finished_`). -/
def Sys.next (S : Sys G) : Who → List Access
  | .main => if S.polling then [readOf .finished] else []
  | .call i =>
    match S.threads[i]? with
    | none => []
    | some t => t.pc.accesses S.mem

/-- A data race ([intro.races]): two threads can both go next, with accesses to the same
location of which one is a write, and nothing orders them (no lock, no atomic is used). -/
def Sys.Racy (S : Sys G) : Prop :=
  S.threads.any Thread.fatal = false ∧
  ∃ w₁ w₂ : Who, w₁ ≠ w₂ ∧ ∃ a ∈ S.next w₁, ∃ b ∈ S.next w₂,
    a.loc = b.loc ∧ (a.write = true ∨ b.write = true)

end PJC.Conc
