import Verif.Model.Protocol
/-
Model of the RPC service and the two programs around the protocol objects:
/repo/private_join_and_compute/private_join_and_compute_rpc_impl.{h,cc}, client.cc and
server.cc.
-/
namespace PJC.Protocol

/-- The codes of `::grpc::Status` the service produces. -/
inductive GrpcCode where
  | ok | invalidArgument | internal | unknown
  deriving DecidableEq, Repr

/-- private_join_and_compute_rpc_impl.cc:24-38 `ConvertStatus` (the message text, which is
copied, is not modelled). -/
def convertStatus : Res Unit → Res GrpcCode
  | .ok _ => .ok .ok
  | .err .invalidArgument => .ok .invalidArgument
  | .err .internal => .ok .internal
  | .err _ => .ok .unknown
  | .crash => .crash
  | .ub => .ub

/-- private_join_and_compute_rpc_impl.cc:40-61, a `SingleMessageSink`: the response object it
writes to and `message_sent_`. -/
structure SingleSink where
  response : ServerMsg
  messageSent : Bool

/-- private_join_and_compute_rpc_impl.cc:42-43 constructor; a fresh response message has no
content. -/
def SingleSink.fresh : SingleSink := { response := .other, messageSent := false }

/-- private_join_and_compute_rpc_impl.cc:47-56 `Send`. -/
def SingleSink.send (k : SingleSink) (m : ServerMsg) : SingleSink × Res Unit :=
  if !k.messageSent then ({ response := m, messageSent := true }, .ok ())
  else (k, .err .invalidArgument)

/-- The `Handle` of an arbitrary `ProtocolServer` (protocol_server.h:39-42) as seen from the
sink: it sends messages, sees the status of each, and finally returns a status. -/
inductive Prog where
  | ret (status : Res Unit)
  | send (m : ServerMsg) (k : Res Unit → Prog)

/-- Running such a `Handle` against a `SingleMessageSink`; the list collects the messages
handed to `Send` with the status each got. -/
def Prog.run : Prog → SingleSink → SingleSink × List (ServerMsg × Res Unit) × Res Unit
  | .ret st, k => (k, [], st)
  | .send m f, k =>
    let (k', r) := k.send m
    let (k'', sent, st) := (f r).run k'
    (k'', (m, r) :: sent, st)

/-- private_join_and_compute_rpc_impl.cc:65-71 `Handle`: status and response. -/
def rpcHandle (p : Prog) : Res GrpcCode × ServerMsg :=
  let (k, _, st) := p.run .fresh
  (convertStatus st, k.response)

variable {G : Type} [AddCommGroup G] [DecidableEq G]

/-- The server's `Handle` (server_impl.cc:127-175) in that form: its one `Send` is its last
action and its status is returned (server_impl.cc:174). -/
def Server.prog (s : Server G) (rnd : ServerRand) (m : ClientMsg) : Prog :=
  let o := s.handle rnd (fun _ => .ok ()) m
  match o.sent with
  | x :: _ => .send x .ret
  | [] => .ret o.status

/-! ### client.cc -/

/-- The network and what is behind it: for each call of the stub (client.cc:62-63) the
transport status and the content of the response object afterwards. -/
structure Net (σ : Type) where
  call : σ → ClientMsg → σ × Bool × ServerMsg

/-- client.cc:52-79, `InvokeServerHandleClientMessageSink`: the network and
`last_server_response_`. -/
structure ClientSink (σ : Type) where
  net : σ
  last : ServerMsg

/-- client.cc:60-72 `Send`, its status. -/
def Net.sendStatus {σ : Type} (N : Net σ) (k : ClientSink σ) (m : ClientMsg) : Res Unit :=
  if (N.call k.net m).2.1 then .ok () else .err .internal

/-- client.cc:60-72 `Send`, the sink after the messages of one call (the client sends at most
one message in each of its calls). -/
def Net.after {σ : Type} (N : Net σ) (k : ClientSink σ) : List ClientMsg → ClientSink σ
  | [] => k
  | m :: _ => { net := (N.call k.net m).1, last := (N.call k.net m).2.2 }

/-- What the process leaves behind: exit code, the two numbers printed, the client object
(if it was created) and the sink. -/
structure Exit (G σ : Type) where
  code : Nat
  printed : Option (Int × Nat)
  client : Option (Client G)
  net : σ

/-- client.cc:81-173 `ExecuteProtocol`.  `data` is the result of reading the file (line 85),
`mk` the constructed client (line 98), `k1`, `k2` the draws of its two calls.  Progress
output is not modelled. -/
def executeProtocol {σ : Type} (N : Net σ) (net0 : σ) (data : Res (List Bytes × List BigNum))
    (mk : List Bytes → List BigNum → Res (Client G)) (k1 k2 : ClientRand) :
    Res (Exit G σ) :=
  match data with
  | .err _ => .ok ⟨1, none, none, net0⟩
  | .crash => .crash
  | .ub => .ub
  | .ok (els, vals) => do
    let c ← mk els vals
    let sink0 : ClientSink σ := { net := net0, last := .other }
    let o0 := c.startProtocol (N.sendStatus sink0)
    let sink1 := N.after sink0 o0.sent
    match o0.status with
    | .err _ => .ok ⟨1, none, some o0.state, sink1.net⟩
    | .crash => .crash
    | .ub => .ub
    | .ok _ =>
      let o1 := o0.state.handle k1 (N.sendStatus sink1) sink1.last
      let sink2 := N.after sink1 o1.sent
      match o1.status with
      | .err _ => .ok ⟨1, none, some o1.state, sink2.net⟩
      | .crash => .crash
      | .ub => .ub
      | .ok _ =>
        let o2 := o1.state.handle k2 (N.sendStatus sink2) sink2.last
        let sink3 := N.after sink2 o2.sent
        match o2.status with
        | .err _ => .ok ⟨1, none, some o2.state, sink3.net⟩
        | .crash => .crash
        | .ub => .ub
        | .ok _ =>
          match o2.state.printOutput with
          | .err _ => .ok ⟨1, none, some o2.state, sink3.net⟩
          | .crash => .crash
          | .ub => .ub
          | .ok r => .ok ⟨0, some r, some o2.state, sink3.net⟩

/-- server.cc:41-87, the serving part of `RunServer`, as seen by a client over a reliable
connection: one service object handling the calls one after the other; `rnds` are the draws
of the successive calls.  A server process that aborts is seen as a failed call. -/
def serviceNet (rnds : Nat → ServerRand) : Net (Server G × Nat) where
  call st m :=
    let o := st.1.handle (rnds st.2) (fun _ => .ok ()) m
    match rpcHandle (st.1.prog (rnds st.2) m) with
    | (.ok .ok, resp) => ((o.state, st.2 + 1), true, resp)
    | (.ok _, resp) => ((o.state, st.2 + 1), false, resp)
    | (_, resp) => ((st.1, st.2 + 1), false, resp)

end PJC.Protocol
