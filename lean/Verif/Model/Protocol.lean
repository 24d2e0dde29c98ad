import Verif.Model.EcCipher
import Verif.Model.Paillier
/-
Model of the private intersection-sum protocol:
/repo/private_join_and_compute/client_impl.{h,cc}, server_impl.{h,cc},
private_intersection_sum.proto, match.proto, private_join_and_compute.proto.

Each `Handle` call maps the object state, the random draws, the behaviour of the message
sink and the incoming message to the new object state, the messages passed to the sink,
and the returned status (or an abort).
-/
namespace PJC

/-- `operator<` of `std::string`: lexicographic on unsigned bytes. -/
def bytesLt : Bytes → Bytes → Bool
  | [], [] => false
  | [], _ :: _ => true
  | _ :: _, [] => false
  | a :: as, b :: bs => if a < b then true else if b < a then false else bytesLt as bs

namespace Protocol

/-- match.proto:28-31 `EncryptedElement`. -/
structure EncElement where
  element : Bytes
  data : Bytes
  deriving DecidableEq, Repr

/-- private_intersection_sum.proto:37-41 `ClientRoundOne`. -/
structure ClientRoundOne where
  publicKey : Bytes
  encryptedSet : List EncElement
  reencryptedSet : List EncElement
  deriving DecidableEq, Repr

/-- private_intersection_sum.proto:56-59 `ServerRoundTwo`. -/
structure ServerRoundTwo where
  size : Int
  encryptedSum : Bytes
  deriving DecidableEq, Repr

/-- private_join_and_compute.proto `ClientMessage` with
private_intersection_sum.proto:26-42: `other` has no intersection-sum message in it
(wrong protocol type); `empty` has one without content. -/
inductive ClientMsg where
  | other
  | empty
  | start
  | roundOne (m : ClientRoundOne)
  deriving DecidableEq, Repr

/-- private_join_and_compute.proto `ServerMessage` with
private_intersection_sum.proto:46-60. -/
inductive ServerMsg where
  | other
  | empty
  | roundOne (encryptedSet : List EncElement)
  | roundTwo (m : ServerRoundTwo)
  deriving DecidableEq, Repr

/-- What one call does: the object afterwards, the messages handed to the sink, and the
status returned (`crash`/`ub` when the call does not return; the other two fields are
then meaningless). -/
structure Out (σ μ : Type) where
  state : σ
  sent : List μ
  status : Res Unit

/-- The comparison used for sorting and intersecting: `a.element() < b.element()`
(server_impl.cc:92-95, client_impl.cc:76-79). -/
def elemLt (a b : EncElement) : Bool := bytesLt a.element b.element

/-- `std::set_intersection` (called at server_impl.cc:100-105) on sorted ranges: copies
from the first range.  `fuel` is at least the number of comparisons. -/
def setIntersectionLoop : Nat → List EncElement → List EncElement → List EncElement
  | 0, _, _ => []
  | _ + 1, [], _ => []
  | _ + 1, _ :: _, [] => []
  | fuel + 1, a :: as, b :: bs =>
    if elemLt a b then setIntersectionLoop fuel as (b :: bs)
    else if elemLt b a then setIntersectionLoop fuel (a :: as) bs
    else a :: setIntersectionLoop fuel as bs

/-- `std::set_intersection` (called at server_impl.cc:100-105). -/
def setIntersection (as bs : List EncElement) : List EncElement :=
  setIntersectionLoop (as.length + bs.length + 1) as bs

variable {G : Type} [AddCommGroup G] [DecidableEq G]

/-! ### Server -/

/-- Everything random or unspecified in one server call: the random word of the EC key,
the draws of `RelativelyPrimeRandomLessThan` and `GenerateRandLessThan` (as functions of
the bound), and what `std::sort` does to each of its two inputs. -/
structure ServerRand where
  keyWord : Nat
  relPrime : BigNum → BigNum
  lessThan : BigNum → BigNum
  sortClient : List EncElement → List EncElement
  sortServer : List EncElement → List EncElement

/-- server_impl.h:40-88, the server object (with the exponentiation flags of the
process and the outcome of creating the P-256 group). -/
structure Server (G : Type) where
  cfg : ExpCfg
  curve : Res (EcGroup G)
  inputs : List Bytes
  cipher : Option (EcCipher G)
  finished : Bool

namespace Server

/-- server_impl.h:42-44, constructor. -/
def init (cfg : ExpCfg) (curve : Res (EcGroup G)) (inputs : List Bytes) : Server G :=
  { cfg := cfg, curve := curve, inputs := inputs, cipher := none, finished := false }

/-- server_impl.cc:49-57, the loop of `EncryptSet`. -/
def encryptLoop (K : EcCipher G) : List Bytes → Res (List EncElement)
  | [] => .ok []
  | a :: as => do
    let e ← K.encrypt a
    let rest ← encryptLoop K as
    return { element := e, data := [] } :: rest

/-- server_impl.cc:35-60 `EncryptSet`: the cipher is stored before the set is
encrypted. -/
def encryptSet (s : Server G) (rnd : ServerRand) : Server G × Res (List EncElement) :=
  match s.cipher with
  | some _ => (s, .err .invalidArgument)
  | none =>
    match EcCipher.createWithNewKey s.curve .sha256 rnd.keyWord with
    | .ok K => ({ s with cipher := some K }, encryptLoop K s.inputs)
    | .err c => (s, .err c)
    | .crash => (s, .crash)
    | .ub => (s, .ub)

/-- server_impl.cc:76-86: re-encrypts the client's set, keeping the associated data. -/
def reEncryptLoop (K : EcCipher G) : List EncElement → Res (List EncElement)
  | [] => .ok []
  | e :: es => do
    let r ← K.reEncrypt e.element
    let rest ← reEncryptLoop K es
    return { element := r, data := e.data } :: rest

/-- server_impl.cc:62-125 `ComputeIntersection`; it does not change the object. -/
def computeIntersection (s : Server G) (rnd : ServerRand) (m : ClientRoundOne) :
    Res ServerRoundTwo :=
  match s.cipher with
  | none => .err .invalidArgument
  | some K => do
    let N := BN.ofBytes m.publicKey
    let pk ← PublicPaillier.new s.cfg (rnd.relPrime N) N 2
    let clientSet ← reEncryptLoop K m.encryptedSet
    let serverSet := m.reencryptedSet
    let inter := setIntersection (rnd.sortClient clientSet) (rnd.sortServer serverSet)
    let zero ← pk.encrypt 0 (rnd.lessThan N)
    let sum := inter.foldl (fun acc e => pk.add acc (BN.ofBytes e.data)) zero
    let bytes ← BN.toBytes sum
    return { size := inter.length, encryptedSum := bytes }

/-- server_impl.cc:127-175 `Handle`; `sink` is the status `Send` returns. -/
def handle (s : Server G) (rnd : ServerRand) (sink : ServerMsg → Res Unit) (m : ClientMsg) :
    Out (Server G) ServerMsg :=
  if s.finished then { state := s, sent := [], status := .err .invalidArgument }
  else
    match m with
    | .other => { state := s, sent := [], status := .err .invalidArgument }
    | .empty => { state := s, sent := [], status := .err .invalidArgument }
    | .start =>
      match s.encryptSet rnd with
      | (s', .ok set) =>
        { state := s', sent := [.roundOne set], status := sink (.roundOne set) }
      | (s', .err c) => { state := s', sent := [], status := .err c }
      | (s', .crash) => { state := s', sent := [], status := .crash }
      | (s', .ub) => { state := s', sent := [], status := .ub }
    | .roundOne m =>
      match s.computeIntersection rnd m with
      | .ok r =>
        { state := { s with finished := true }, sent := [.roundTwo r],
          status := sink (.roundTwo r) }
      | .err c => { state := s, sent := [], status := .err c }
      | .crash => { state := s, sent := [], status := .crash }
      | .ub => { state := s, sent := [], status := .ub }

end Server

/-! ### Client -/

/-- Everything random or unspecified in one client call: the two draws of each value
encryption (paillier.cc:255-257), and what `std::sort` does. -/
structure ClientRand where
  draws : Nat → BigNum × BigNum
  sort : List EncElement → List EncElement

/-- client_impl.h:80-103, the client object. -/
structure Client (G : Type) where
  cfg : ExpCfg
  elements : List Bytes
  values : List BigNum
  p : BigNum
  q : BigNum
  cipher : EcCipher G
  paillier : Option PrivatePaillier
  size : Int
  sum : BigNum
  finished : Bool

namespace Client

/-- client_impl.cc:32-45, constructor; `p`, `q` are the two safe primes drawn and
`keyWord` the random word of the EC key. -/
def init (cfg : ExpCfg) (curve : Res (EcGroup G)) (elements : List Bytes)
    (values : List BigNum) (p q : BigNum) (keyWord : Nat) : Res (Client G) := do
  let K ← (EcCipher.createWithNewKey curve .sha256 keyWord).value
  return { cfg := cfg, elements := elements, values := values, p := p, q := q, cipher := K,
           paillier := none, size := 0, sum := 0, finished := false }

/-- client_impl.cc:54-66, the loop over the client's own elements; `i` is the index.
`values_[i]` past the end of the vector is undefined behaviour. -/
def encryptLoop (K : EcCipher G) (sk : PrivatePaillier) (values : List BigNum)
    (draws : Nat → BigNum × BigNum) : Nat → List Bytes → Res (List EncElement)
  | _, [] => .ok []
  | i, a :: as => do
    let e ← K.encrypt a
    match values[i]? with
    | none => .ub
    | some v => do
      let c ← sk.encrypt v (draws i).1 (draws i).2
      let cb ← BN.toBytes c
      let rest ← encryptLoop K sk values draws (i + 1) as
      return { element := e, data := cb } :: rest

/-- client_impl.cc:68-76, the loop over the server's elements (the associated data is
not copied). -/
def reEncryptLoop (K : EcCipher G) : List EncElement → Res (List EncElement)
  | [] => .ok []
  | e :: es => do
    let r ← K.reEncrypt e.element
    let rest ← reEncryptLoop K es
    return { element := r, data := [] } :: rest

/-- client_impl.cc:47-87 `ReEncryptSet`: the Paillier key object is created (and stored)
first. -/
def reEncryptSet (c : Client G) (rnd : ClientRand) (set : List EncElement) :
    Client G × Res ClientRoundOne :=
  match PrivatePaillier.new c.cfg c.p c.q 2 with
  | .ok sk =>
    ({ c with paillier := some sk }, do
      let pk ← BN.toBytes (c.p * c.q)
      let own ← encryptLoop c.cipher sk c.values rnd.draws 0 c.elements
      let re ← reEncryptLoop c.cipher set
      return { publicKey := pk, encryptedSet := own, reencryptedSet := rnd.sort re })
  | .err e => (c, .err e)
  | .crash => (c, .crash)
  | .ub => (c, .ub)

/-- client_impl.cc:89-102 `DecryptSum`. -/
def decryptSum (c : Client G) (m : ServerRoundTwo) : Res (Int × BigNum) :=
  match c.paillier with
  | none => .err .invalidArgument
  | some sk => do
    let sum ← sk.decrypt (BN.ofBytes m.encryptedSum)
    return (m.size, sum)

/-- client_impl.cc:104-111 `StartProtocol`. -/
def startProtocol (c : Client G) (sink : ClientMsg → Res Unit) : Out (Client G) ClientMsg :=
  { state := c, sent := [.start], status := sink .start }

/-- client_impl.cc:113-164 `Handle`. -/
def handle (c : Client G) (rnd : ClientRand) (sink : ClientMsg → Res Unit) (m : ServerMsg) :
    Out (Client G) ClientMsg :=
  if c.finished then { state := c, sent := [], status := .err .invalidArgument }
  else
    match m with
    | .other => { state := c, sent := [], status := .err .invalidArgument }
    | .empty => { state := c, sent := [], status := .err .invalidArgument }
    | .roundOne set =>
      match c.reEncryptSet rnd set with
      | (c', .ok r) => { state := c', sent := [.roundOne r], status := sink (.roundOne r) }
      | (c', .err e) => { state := c', sent := [], status := .err e }
      | (c', .crash) => { state := c', sent := [], status := .crash }
      | (c', .ub) => { state := c', sent := [], status := .ub }
    | .roundTwo m =>
      match c.decryptSum m with
      | .ok (n, sum) =>
        { state := { c with size := n, sum := sum, finished := true }, sent := [],
          status := .ok () }
      | .err e => { state := c, sent := [], status := .err e }
      | .crash => { state := c, sent := [], status := .crash }
      | .ub => { state := c, sent := [], status := .ub }

/-- client_impl.cc:166-180 `PrintOutput`: the two numbers printed. -/
def printOutput (c : Client G) : Res (Int × Nat) :=
  if !c.finished then .err .invalidArgument
  else do
    let v ← BN.toIntValue c.sum
    return (c.size, v)

end Client
end Protocol
end PJC
