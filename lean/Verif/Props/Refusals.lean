import Verif.Props.Paillier
import Verif.Props.DyVrf
import Verif.Props.Shard
import Verif.Model.BbSig
/-
Refusals: which arguments the entry points with given randomness (C13), the splitting of vectors
(C53), the proof systems (C93) and the sharding writer (C44) refuse, and with which status.
-/
namespace PJC

/-- **C13**, the entry points with given randomness.  The private one refuses exactly the messages
outside `[0, n^s)`.  The public ones refuse exactly the random values that are not units modulo
`n` (`EncryptWithRand`) or exceed `n` (`EncryptUsingGeneratorAndRand`); they do not check the
message, and what they return decrypts to the message modulo `n^s`. -/
theorem C13_given_rand (cfg cfg' cfg'' : ExpCfg) (p q s : Nat) (hs : 1 ≤ s) (x : Int)
    (hx : Int.gcd x ((p * q : Nat) : Int) = 1)
    (pk : PublicPaillier) (sk : PrivatePaillier) (w : PrivatePaillierWithRand)
    (hpk : PublicPaillier.new cfg x ((p * q : Nat) : Int) s = .ok pk)
    (hsk : PrivatePaillier.new cfg' p q s = .ok sk)
    (hw : PrivatePaillierWithRand.new cfg'' sk = .ok w) :
    (∀ m rp rq, 0 ≤ rp → 0 ≤ rq →
      if 0 ≤ m ∧ m < ((p * q : Nat) : Int) ^ s then ∃ c, w.encryptAndGetRand m rp rq = .ok c
      else w.encryptAndGetRand m rp rq = .err .invalidArgument) ∧
    (∀ m r, if Int.gcd r ((p * q : Nat) : Int) = 1 then
        ∃ c, pk.encryptWithRand m r = .ok c ∧
          sk.decrypt c = .ok (m % ((p * q : Nat) : Int) ^ s)
      else pk.encryptWithRand m r = .err .invalidArgument) ∧
    (∀ m r, 0 ≤ r → if r ≤ ((p * q : Nat) : Int) then
        ∃ c, pk.encryptUsingGeneratorAndRand m r = .ok c ∧
          sk.decrypt c = .ok (m % ((p * q : Nat) : Int) ^ s)
      else pk.encryptUsingGeneratorAndRand m r = .err .invalidArgument) := by
  have G := PublicPaillier.new_good hpk
  have S := PrivatePaillier.new_good hs hsk
  refine ⟨fun m rp rq hp hq => ?_, fun m r => ?_, fun m r r0 => ?_⟩
  · split
    · rename_i h
      obtain ⟨-, c, r, hc, -⟩ :=
        Props.C11_private_round_trip cfg' cfg'' p q s hs sk w hsk hw m rp rq h.1 h.2 hp hq
      exact ⟨_, hc⟩
    · rename_i h
      have hsk' : w.sk = sk := by
        unfold PrivatePaillierWithRand.new at hw
        simp only [Res.bind_eq_ok, Res.pure_eq, Res.ok.injEq] at hw
        obtain ⟨_, _, _, _, _, _, rfl⟩ := hw
        rfl
      unfold PrivatePaillierWithRand.encryptAndGetRand
      rw [hsk', S.hns]
      split
      · rfl
      · rw [if_pos (by omega)]
  · split
    · rename_i hr
      obtain ⟨c, hc, hcm⟩ := PublicPaillier.encryptWithRand_spec G m hr
      exact ⟨_, hc, PrivatePaillier.decrypt_spec S
        (CtN.of_modN G.npos (Int.isCoprime_iff_gcd_eq_one.2 hr) hcm)⟩
    · rename_i hr
      rw [PublicPaillier.encryptWithRand, G.hn, if_pos hr]
  · split
    · rename_i hr
      obtain ⟨c, hc, hcm⟩ := PublicPaillier.encryptUsingGen_spec G m r0 hr
      exact ⟨_, hc, PrivatePaillier.decrypt_spec S
        (CtN.of_modN G.npos (generator_coprime hx).pow_left hcm)⟩
    · rename_i hr
      rw [PublicPaillier.encryptUsingGeneratorAndRand, G.hn, if_pos (by omega)]

namespace Ped

theorem splitLoop_ub {α : Type} (input : List α) (sub : Nat) : ∀ (k i : Nat),
    (∃ j, i ≤ j ∧ j < i + k ∧ 2 ^ 31 ≤ j * sub) → splitLoop input sub k i = .ub
  | 0, i, ⟨j, h1, h2, _⟩ => by omega
  | k + 1, i, ⟨j, h1, h2, h3⟩ => by
    unfold splitLoop
    split
    · rfl
    · rename_i hc
      have hij : i ≠ j := by rintro rfl; exact hc (.inl h3)
      rw [splitLoop_ub input sub k (i + 1) ⟨j, by omega, by omega, h3⟩]
      rfl

/-- **C53**, longer vectors: the start of a piece is computed as an `int`, so as soon as a piece
would start at 2^31 or later the behaviour is undefined. -/
theorem C53_long {α : Type} (input : List α) (sub : Nat) (hs : 0 < sub) (j : Nat)
    (h1 : 2 ^ 31 ≤ j * sub) (h2 : j * sub < input.length) : splitVector input sub = .ub := by
  rw [splitVector, if_neg (by omega)]
  apply splitLoop_ub
  refine ⟨j, Nat.zero_le _, ?_, h1⟩
  rw [Nat.zero_add, Nat.lt_div_iff_mul_lt hs]
  omega

-- every vector of more than 2^31 elements, in pieces of one element
example (n : Nat) (hn : 2 ^ 31 < n) : splitVector (List.replicate n 0) 1 = .ub :=
  C53_long _ 1 Nat.one_pos (2 ^ 31) (by rw [mul_one]) (by rw [List.length_replicate, mul_one]; exact hn)

/-- **C93**: the proofs that Pedersen parameters were made correctly are made, and verified, only
for positive security parameters and a base that is a unit; the base must be the claimed power,
and the numbers of messages must be the stated one.  Everything else is INVALID_ARGUMENT. -/
theorem C93_parameters (H : Hashes) (g h n r : BigNum) (reps zk : Int) (draws : Nat → Nat)
    (w : Nat) (π : ProofOfGen) (τ : TrustedProof) :
    (reps ≤ 0 ∨ zk ≤ 0 ∨ Int.gcd h n ≠ 1 →
      prove H g h n r reps zk draws = .err .invalidArgument ∧
      proveTrusted H g h n r reps zk w = .err .invalidArgument) ∧
    (0 < n → 0 ≤ r → g ≠ h ^ r.toNat % n →
      prove H g h n r reps zk draws = .err .invalidArgument ∧
      proveTrusted H g h n r reps zk w = .err .invalidArgument) ∧
    (π.reps ≤ 0 ∨ (π.dummyGs.length : Int) ≠ π.reps ∨ (π.responses.length : Int) ≠ π.reps ∨
      Int.gcd h n ≠ 1 → verifyProof H g h n π = .err .invalidArgument) ∧
    (τ.challengeLength ≤ 0 ∨ Int.gcd h n ≠ 1 →
      verifyTrusted H g h n τ = .err .invalidArgument) := by
  have e : (BN.gcd h n ≠ 1) ↔ (Int.gcd h n ≠ 1) := by
    simp only [BN.gcd]; norm_cast
  refine ⟨fun hb => ⟨?_, ?_⟩, fun hn hr hg => ⟨?_, ?_⟩, fun hb => ?_, fun hb => ?_⟩
  · unfold prove
    split
    · rfl
    · split
      · rfl
      · rw [if_pos (e.2 (by tauto))]
  · unfold proveTrusted
    split
    · rfl
    · split
      · rfl
      · rw [if_pos (e.2 (by tauto))]
  · unfold prove
    split
    · rfl
    · split
      · rfl
      · split
        · rfl
        · rw [modExp_ok hr hn.ne', Res.ok_bind, if_pos hg]
  · unfold proveTrusted
    split
    · rfl
    · split
      · rfl
      · split
        · rfl
        · rw [modExp_ok hr hn.ne', Res.ok_bind, if_pos hg]
  · unfold verifyProof
    split
    · rfl
    · split
      · rfl
      · split
        · rfl
        · rw [if_pos (e.2 (by tauto))]
  · unfold verifyTrusted
    split
    · rfl
    · rw [if_pos (e.2 (by tauto))]

end Ped

namespace Vrf
variable {G : Type} [AddCommGroup G] [DecidableEq G]

/-- **C93**: a verifiable random function is made exactly from positive security parameters and a
base that encodes a point; otherwise INVALID_ARGUMENT. -/
theorem C93_vrf (params : VrfParams) (E : EcGroup G) (ped : Pedersen) :
    (params.sec ≤ 0 ∨ params.chal ≤ 0 →
      Vrf.create params E ped = .err .invalidArgument) ∧
    (0 < params.sec → 0 < params.chal →
      (E.createECPoint params.baseG = .err .invalidArgument →
        Vrf.create params E ped = .err .invalidArgument) ∧
      (∀ g, E.createECPoint params.baseG = .ok g →
        ∃ v, Vrf.create params E ped = .ok v ∧ v.params = params ∧ v.group = E ∧ v.base = g ∧
          v.ped = ped)) := by
  refine ⟨fun h => ?_, fun h1 h2 => ⟨fun h => ?_, fun g h => ?_⟩⟩
  · unfold Vrf.create
    split
    · rfl
    · rw [if_pos (by tauto)]
  · rw [Vrf.create, if_neg (by omega), if_neg (by omega), h]; rfl
  · rw [Vrf.create, if_neg (by omega), if_neg (by omega), h]
    exact ⟨_, rfl, rfl, rfl, rfl, rfl⟩

end Vrf

namespace Bb
variable {G : Type} [AddCommGroup G] [DecidableEq G]

/-- **C93**: the oblivious signature scheme is made only from positive security parameters. -/
theorem C93_bb_create (params : BbParams) (E : EcGroup G) (cs : CsPublic) (ped : Pedersen)
    (h : params.sec ≤ 0 ∨ params.chal ≤ 0) :
    Bb.create params E cs ped = .err .invalidArgument := by
  unfold Bb.create
  split
  · rfl
  · rw [if_pos (by tauto)]

/-- **C93**: more messages than bases, or another number of nonces than of messages, are refused
with INVALID_ARGUMENT before anything is computed. -/
theorem C93_bb_request (H : Hashes) (v : BbSig G) (ms rs : List BigNum) (pk : BbPublicKey)
    (cm om cr orr : BigNum) (d : ReqDraws)
    (h : v.ped.gs.length < ms.length ∨ rs.length ≠ ms.length) :
    generateRequest H v ms rs pk cm om cr orr d = .err .invalidArgument := by
  unfold generateRequest
  split
  · rfl
  · rw [if_pos (by tauto)]

/-- **C93**: a request for more messages than there are bases, or with any vector of another length
than announced, is refused by `VerifyRequest`, and one for too many messages by
`GenerateResponseAndProof`, with INVALID_ARGUMENT. -/
theorem C93_bb_verify_request (H : Hashes) (v : BbSig G) (pk : BbPublicKey) (req : BbRequest)
    (p : BbReqProof) (cm cr : BigNum) (hlen : v.cs.len ≠ 0)
    (h : v.ped.gs.length < req.num ∨ p.commitAs.length ≠ req.num ∨
      p.message2.messages.length ≠ req.num ∨ p.message2.rs.length ≠ req.num ∨
      p.message2.as.length ≠ req.num ∨ p.message2.bs.length ≠ req.num ∨
      p.message2.alphas.length ≠ req.num ∨ p.message2.gammas.length ≠ req.num ∨
      req.cts.length ≠ (req.num + v.cs.len - 1) / v.cs.len ∨
      p.message2.enc.length ≠ (req.num + v.cs.len - 1) / v.cs.len) :
    verifyRequest H v pk req p cm cr = .err .invalidArgument ∧
    (v.ped.gs.length < req.num → ∀ (sk : CsPrivate) (d : RespDraws),
      generateResponse H v sk req pk cm cr d = .err .invalidArgument) := by
  constructor
  · have : requestSizes v req p = .err .invalidArgument := by
      unfold requestSizes
      iterate 8
        split
        · rfl
      iterate 2
        split
        · rfl
      rename_i h1 h2 h3 h4 h5 h6 h7 h8 h9 h10
      exact absurd h (by
        simp only [numCts] at h9 h10
        rintro (h | h | h | h | h | h | h | h | h | h)
        · exact h1 h
        · exact h2 h
        · exact h3 h
        · exact h4 h
        · exact h5 h
        · exact h6 h
        · exact h7 h
        · exact h8 h
        · exact h9 h
        · exact h10 h)
    rw [verifyRequest, this]; rfl
  · intro h sk d
    rw [generateResponse, if_pos h]

/-- **C93**: a response with another number of signatures or masked values than requested is
refused with INVALID_ARGUMENT. -/
theorem C93_bb_verify_response (H : Hashes) (v : BbSig G) (pk : BbPublicKey) (response : List Bytes)
    (p : BbRespProof) (req : BbRequest) (cm cr : BigNum)
    (h : response.length ≠ req.num ∨ p.xs.length ≠ v.cs.len ∨ p.betas.length ≠ req.num) :
    verifyResponse H v pk response p req cm cr = .err .invalidArgument := by
  unfold verifyResponse
  split
  · rfl
  · split
    · rfl
    · rw [if_pos (by tauto)]

/-- The refusals concern values that a caller or a peer can hand over: parameters with a security
parameter of 0, a second nonce for one message, and a response with one point too many. -/
example (E : EcGroup G) (cs : CsPublic) (ped : Pedersen) (H : Hashes) (v : BbSig G)
    (pk : BbPublicKey) (d : ReqDraws) (p : BbRespProof) (req : BbRequest) (cm cr : BigNum)
    (pts : List Bytes) (hpts : pts.length = req.num) :
    Bb.create ⟨0, 128, [], [], ⟨[], [], [], 1⟩, ⟨[], [], []⟩⟩ E cs ped = .err .invalidArgument ∧
    generateRequest H v [5] [1, 2] pk cm 0 cr 0 d = .err .invalidArgument ∧
    verifyResponse H v pk ([2] :: pts) p req cm cr = .err .invalidArgument :=
  ⟨C93_bb_create _ E cs ped (Or.inl le_rfl), C93_bb_request H v _ _ pk _ _ _ _ d (Or.inr (by simp)),
    C93_bb_verify_response H v pk _ p req cm cr (Or.inl (by simp [hpts]))⟩

end Bb

namespace Rec
variable {κ : Type} [LinearOrder κ]

/-- **C44**, wrong order of calls: before `SetShardPrefix`, and after `Close`, `Write` and `Close`
return INTERNAL; no file is touched. -/
theorem C44_not_open (Ω : Faults) (s : Shard κ) (h : s.isOpen = false) (r : Bytes) :
    s.write Ω r = (.err .internal, s) ∧ (s.close Ω).1 = .err .internal ∧
      (s.close Ω).2.out = s.out := by
  refine ⟨by simp [Shard.write, h], by simp [Shard.close, Shard.tryClose, h],
    by simp [Shard.close, Shard.tryClose, h]⟩

example (key : Bytes → κ) (w : World) : (Shard.init key 5 w).isOpen = false := rfl

/-- A closed writer is not open. -/
example (Ω : Faults) (s : Shard κ) : (s.close Ω).2.isOpen = false := rfl

end Rec
end PJC
