import Verif.Lemmas.RandomOracle
import Verif.Props.BbSound
import Verif.Props.BbTranscript
set_option linter.unusedSectionVars false
/-
C123: soundness of the response proof of the oblivious signature when SHA-512 is a random function.
-/
namespace PJC.RomSound
open PJC.Bb PJC.DJ PJC.Oracle PJC.Prob PJC.Props

variable {G : Type} [AddCommGroup G] [DecidableEq G]

/-- The response gives the client its signatures: extraction returns one signature for each
message, on this message and its nonce. -/
def Right (v : BbSig G) (bsk : BbPrivateKey) (ms rs : List Int) (st : List Bytes)
    (resp : List Bytes) : Prop :=
  ∃ σs, extractResults v resp st = .ok σs ∧ σs.length = ms.length ∧
    ∀ i < ms.length, IsBbSig v (BN.ofBytes bsk.k) (BN.ofBytes bsk.y) (ms.getD i 0)
      (rs.getD i 0) (σs.getD i 0)

/-- The string that is hashed for a response and its proof, when `m` is the first message. -/
def hashed (v : BbSig G) (pk : BbPublicKey) (cm cr : Int) (req : BbRequest) (resp : List Bytes)
    (p : BbRespProof) (m : BbRespMessage1) : Bytes :=
  responseTranscript ⟨v.params, pk, BN.natToBytes cm.toNat, BN.natToBytes cr.toNat, req, resp,
    BN.natToBytes (BN.ofBytes p.commitBetas).toNat⟩ m

theorem responseChallenge_eq {v : BbSig G} {H : Hashes} {o : Bytes → Digest} {pk : BbPublicKey}
    {cm cr : Int} (h0 : 0 ≤ cm) (h0' : 0 ≤ cr) {req : BbRequest} {resp : List Bytes}
    {p : BbRespProof} {m : BbRespMessage1} (h1 : 1 ≤ v.params.chal) (h2 : v.params.chal ≤ 511) :
    responseChallenge (withSha512 H o) v pk cm cr req resp (BN.ofBytes p.commitBetas) m =
      .ok ((chalOf v.params.chal.toNat (o (block (hashed v pk cm cr req resp p m))) : Nat) : Int) := by
  unfold responseChallenge
  rw [lshift64_ok _ (by omega) (by omega), Res.ok_bind, BN.toBytes_of_nonneg h0, Res.ok_bind,
    BN.toBytes_of_nonneg h0', Res.ok_bind, BN.toBytes_of_nonneg (BN.ofBytes_nonneg _), Res.ok_bind,
    one_mul, randomOracle_two (by omega) (by omega)]
  rfl

open scoped Classical in
/-- **C123**.  SHA-512 is a random function: its values are drawn uniformly and independently on the
finite set `D` (elsewhere, for example where the client has hashed already, they are any values
`B`).  A signer, whatever it is able to compute, that hashes at most `Q` strings and then answers an
honest request, has its response accepted although the client does not get its signatures with
probability at most `(Q + 1) / 2^chal`.  Challenges have at most 511 bits and are not longer than
the order of the group; the encryption modulus leaves room for the ranges. -/
theorem C123_response (gs : List Int) (h n : Int) (N s : Nat) (g : Int) (ys xs : List Int)
    (v : BbSig G) (sk : CsPrivate) (S : BbSetup gs h n N s g ys xs v sk) (pk : BbPublicKey)
    (bsk : BbPrivateKey) (ms rs : List Int) (cm om cr orr : Int)
    (R : BbRun gs N ys v pk bsk ms rs cm om cr orr) (H₀ : Hashes) (d : ReqDraws)
    (req : BbRequest) (π : BbReqProof) (st : List Bytes)
    (hreq : generateRequest H₀ v ms rs pk cm om cr orr d = .ok (req, π, st))
    (hroom : 3 * 2 ^ (2 * (v.params.chal + v.params.sec).toNat) * (v.group.order : Int) ^ 3 ≤
      (N : Int) ^ s)
    (hchal : v.params.chal ≤ 511) (horder : 2 ^ v.params.chal.toNat ≤ v.group.order)
    (htyped : v.params.Typed) (hnum : ms.length < 2 ^ 64)
    (H : Hashes) (B : Bytes → Digest) (D : Finset Bytes) (hlen : ∀ x ∈ D, x.length ≤ 2 ^ 64)
    (Q : Nat) (signer : Prog Bytes Digest (List Bytes × BbRespProof)) (hQ : signer.AsksAtMost Q)
    (hD : ∀ o m, respFirst v (signer.run o).1 (signer.run o).2 req = .ok m →
      block (hashed v pk cm cr req (signer.run o).1 (signer.run o).2 m) ∈ D) :
    prob (fun f : D → Digest =>
      verifyResponse (withSha512 H (graft B D f)) v pk (signer.run (graft B D f)).1
        (signer.run (graft B D f)).2 req cm cr = .ok () ∧
      ¬ Right v bsk ms rs st (signer.run (graft B D f)).1) ≤ (Q + 1) / 2 ^ v.params.chal.toNat := by
  have M := S.made
  obtain ⟨req', π', st', w, cts, k, y, -, -, -, -, hn, henc, hgen, -, hcm, hcr⟩ := bb_run S R H₀ d
  have hreq' := hreq
  rw [hgen] at hreq'
  split at hreq'
  swap
  · cases hreq'
  rename_i hu
  simp only [Res.ok.injEq, Prod.mk.injEq] at hreq'
  obtain ⟨rfl, rfl, rfl⟩ := hreq'
  have hshape : req'.cts.length = numCts req'.num ys.length := by
    have := henc hu
    rw [this.proto, List.length_map, this.len]
  have h1 : 1 ≤ v.params.chal := by
    have := M.chal0
    omega
  let bad : Bytes → Digest → Prop := fun x y => ∃ (K : Hashes) (resp : List Bytes) (p : BbRespProof)
    (m : BbRespMessage1), x = block (hashed v pk cm cr req' resp p m) ∧
      RespAccepted K gs h n N s g ys v pk resp p req' cm cr m ∧ ¬ Right v bsk ms rs st' resp ∧
      ((chalOf v.params.chal.toNat y : Nat) : Int) = BN.ofBytes p.challenge
  have hbad : ∀ x ∈ D, prob (bad x) ≤ 1 / 2 ^ v.params.chal.toNat := by
    intro x hx
    apply prob_chal (by omega)
    rintro y y' ⟨K, resp, p, m, rfl, A, hr, e⟩ ⟨K', resp', p', m', hx', A', hr', e'⟩
    have hl := hlen _ hx
    have ht := block_inj hx'
    obtain ⟨es, rfl⟩ := C74_response_transcript _ _ _ _ ⟨htyped, by rw [hn]; exact hnum⟩
      ⟨htyped, by rw [hn]; exact hnum⟩ (Nat.lt_of_succ_le hl) ht
    have er : resp = resp' := by
      have := congrArg RespStatement.response es
      exact this
    subst er
    have hmod := C94_one_challenge gs h n N s g ys xs v sk S pk bsk ms rs cm om cr orr R H₀ d req' π'
      st' hreq hroom resp hr m K K' p p' A A'
    rw [← e, ← e'] at hmod
    have l1 := chalOf_lt v.params.chal.toNat y
    have l2 := chalOf_lt v.params.chal.toNat y'
    have := (Int.natCast_modEq_iff).1 hmod
    exact Nat.ModEq.eq_of_lt_of_lt this (by omega) (by omega)
  have := search_bound bad (by positivity) (fun a : List Bytes × BbRespProof =>
      match respFirst v a.1 a.2 req' with
      | .ok m => some (block (hashed v pk cm cr req' a.1 a.2 m))
      | _ => none) signer Q D B hbad hQ
    (fun f : D → Digest =>
      verifyResponse (withSha512 H (graft B D f)) v pk (signer.run (graft B D f)).1
        (signer.run (graft B D f)).2 req' cm cr = .ok () ∧
      ¬ Right v bsk ms rs st' (signer.run (graft B D f)).1) ?_
  · exact this.trans_eq (by ring)
  · rintro f ⟨hv, hr⟩
    obtain ⟨m, hm, A⟩ := M.response_accepted hshape hv
    refine ⟨_, hD _ m hm, by rw [hm], _, _, _, m, rfl, A, hr, ?_⟩
    have := A.challenge
    rw [responseChallenge_eq hcm hcr h1 hchal] at this
    exact Res.ok.inj this

/-! ### The bound is reached

In the toy instance (challenges of one bit) a signer that answers with three times the generator,
whatever was asked, and the proof of another response, hashes nothing and is believed with
probability 1/2 = (0 + 1) / 2^1. -/

def toyWrong : Res Bool := do
  let ped ← Ped.create toyBbGs 7 46189 2
  let cs ← Cs.newPublic ⟨false, 3⟩ 221 3 3 toyBbYs
  let sk ← Cs.newPrivate ⟨true, 2⟩ 221 3 3 toyBbYs toyBbXs
  let v ← create toyBbParams toyEc cs ped
  let (pk, bsk) ← generateKeys v 4 6 (fun i => 2 + i) (fun i => 4 + i)
  let cm ← Ped.commitWithRand ped [1, 2, 10] 55
  let cr ← Ped.commitWithRand ped [3, 0, 9] 66
  let (req, _, st) ← generateRequest (toyHash 255) v [1, 2, 10] [3, 0, 9] pk cm 55 cr 66 toyReqDraws
  let (_, p) ← generateResponse (toyHash 255) v sk req pk cm cr toyRespDraws
  let m ← respFirst v [[1], [1], [1]] p req
  let σs ← extractResults v [[1], [1], [1]] st
  return decide (req.num = 3 ∧ p.xs.length = 2 ∧ p.betas.length = 3 ∧ BN.ofBytes p.challenge = 1 ∧
      (∀ i < 3, numAt p.betas i < 2 ^ 5 * 11 ^ 3) ∧
      (1 + BN.ofBytes bsk.k + BN.ofBytes bsk.y * 3) • σs.getD 0 0 ≠ (1 : ZMod 11) ∧
      v.base = 1 ∧ (hashed v pk cm cr req [[1], [1], [1]] p m).length ≤ 1000)

theorem half_of_le {S : Digest → Prop} [DecidablePred S]
    (h : ∀ d d', S d → S d' → chalOf 1 d = chalOf 1 d')
    (h' : ∀ d d', ¬ S d → ¬ S d' → chalOf 1 d = chalOf 1 d') : prob S = 1 / 2 := by
  have h1 := prob_chal (c := 1) (by norm_num) S h
  have h2 := prob_chal (c := 1) (by norm_num) (fun d => ¬ S d) h'
  have h3 := prob_add_prob_not S
  norm_num at h1 h2
  linarith

open scoped Classical in
/-- The bound of `C123_response` is reached: the hypotheses hold for the toy instance and a signer
that hashes nothing, and its wrong response is accepted with probability 1/2. -/
theorem C123_reached : ∃ (v : BbSig (ZMod 11)) (sk : CsPrivate) (pk : BbPublicKey)
    (bsk : BbPrivateKey) (cm cr : Int) (H₀ : Hashes) (req : BbRequest) (π : BbReqProof)
    (st : List Bytes) (D : Finset Bytes) (signer : Prog Bytes Digest (List Bytes × BbRespProof)),
    BbSetup toyBbGs 7 46189 221 3 3 toyBbYs toyBbXs v sk ∧
    BbRun toyBbGs 221 toyBbYs v pk bsk [1, 2, 10] [3, 0, 9] cm 55 cr 66 ∧
    generateRequest H₀ v [1, 2, 10] [3, 0, 9] pk cm 55 cr 66 toyReqDraws = .ok (req, π, st) ∧
    3 * 2 ^ (2 * (v.params.chal + v.params.sec).toNat) * (v.group.order : Int) ^ 3 ≤
      (221 : Int) ^ 3 ∧
    v.params.chal ≤ 511 ∧ 2 ^ v.params.chal.toNat ≤ v.group.order ∧ v.params.Typed ∧
    (∀ x ∈ D, x.length ≤ 2 ^ 64) ∧ signer.AsksAtMost 0 ∧
    (∀ o m, respFirst v (signer.run o).1 (signer.run o).2 req = .ok m →
      block (hashed v pk cm cr req (signer.run o).1 (signer.run o).2 m) ∈ D) ∧
    ∀ (H : Hashes) (B : Bytes → Digest), prob (fun f : D → Digest =>
      verifyResponse (withSha512 H (graft B D f)) v pk (signer.run (graft B D f)).1
        (signer.run (graft B D f)).2 req cm cr = .ok () ∧
      ¬ Right v bsk [1, 2, 10] [3, 0, 9] st (signer.run (graft B D f)).1) =
      (((0 : Nat) : ℚ) + 1) / 2 ^ v.params.chal.toNat := by
  have h : toyWrong = .ok true := by decide +kernel
  unfold toyWrong at h
  simp only [Res.bind_eq_ok, Res.pure_eq, Res.ok.injEq, decide_eq_true_eq] at h
  obtain ⟨ped, hped, cs, hcs, sk, hsk, v, hv, ⟨pk, bsk⟩, hk, cm, hcm, cr, hcr, ⟨req, π, st⟩, hreq,
    ⟨_, p⟩, -, m, hm, σs, hσ, q1, q2, q3, q4, q5, q6, q7, q8⟩ := h
  obtain ⟨S, R⟩ := toyBb3_hyps hped hcs hsk hv hk hcm hcr
  obtain ⟨ev1, ev2, -, -⟩ := create_eq_ok hv
  have hcm0 : 0 ≤ cm ∧ 0 ≤ cr := by
    obtain ⟨_, _, _, _, _, _, _, -, -, -, -, -, -, -, -, h1, h2⟩ := bb_run S R (toyHash 255) toyReqDraws
    exact ⟨h1, h2⟩
  have hchal : v.params.chal = 1 := by rw [ev1]; rfl
  have hord : v.group.order = 11 := by rw [ev2]; rfl
  let X := block (hashed v pk cm cr req [[1], [1], [1]] p m)
  have hX : X ∈ ({X} : Finset Bytes) := Finset.mem_singleton_self _
  refine ⟨v, sk, pk, bsk, cm, cr, _, req, π, st, {X}, .out ([[1], [1], [1]], p), S, R, hreq, ?_, ?_,
    ?_, ?_, ?_, trivial, ?_, ?_⟩
  · rw [ev1, ev2]; decide
  · rw [hchal]; decide
  · rw [hchal, hord]; decide
  · rw [ev1]
    exact ⟨⟨by decide, by decide⟩, ⟨by decide, by decide⟩, by decide⟩
  · intro x hx
    rw [Finset.mem_singleton.1 hx]
    exact (Nat.succ_le_succ q8).trans (by decide)
  · intro o m' hm'
    simp only [Prog.run] at hm' ⊢
    rw [hm] at hm'
    cases hm'
    exact hX
  · intro H B
    have hw : ¬ Right v bsk [1, 2, 10] [3, 0, 9] st [[1], [1], [1]] := by
      rintro ⟨τ, h1, -, h2⟩
      rw [hσ] at h1
      cases h1
      obtain ⟨j, hj, e⟩ := h2 0 (by decide)
      apply q6
      simp only [List.getD_cons_zero] at hj
      rw [e, q7, smul_smul, mul_comm]
      have : ((j * (1 + BN.ofBytes bsk.k + BN.ofBytes bsk.y * 3) : Int) : ZMod 11) = ((1 : Int) : ZMod 11) := by
        rw [ZMod.intCast_eq_intCast_iff]
        rw [hord] at hj
        exact hj
      simpa [zsmul_eq_mul] using this
    rw [hchal]
    have hval : ∀ f : ({X} : Finset Bytes) → Digest,
        (verifyResponse (withSha512 H (graft B {X} f)) v pk [[1], [1], [1]] p req cm cr = .ok () ∧
          ¬ Right v bsk [1, 2, 10] [3, 0, 9] st [[1], [1], [1]]) ↔ chalOf 1 (f ⟨X, hX⟩) = 1 := by
      intro f
      have e := responseChallenge_eq (v := v) (H := H) (o := graft B {X} f) (pk := pk) (req := req)
        (resp := [[1], [1], [1]]) (p := p) (m := m) hcm0.1 hcm0.2 (by omega) (by omega)
      have := C94_wrong_challenge toyBbGs 7 46189 221 3 3 toyBbYs toyBbXs v sk S pk req cm cr
        (withSha512 H (graft B {X} f)) [[1], [1], [1]] p (by rw [q1]; rfl) q2 (by rw [q1]; exact q3)
        (by
          rw [q1, hord, ev1]
          exact q5) m hm _ e
      rw [this, q4, hchal]
      have e2 : graft B {X} f (block (hashed v pk cm cr req [[1], [1], [1]] p m)) = f ⟨X, hX⟩ :=
        graft_mem B hX f
      rw [e2]
      simp only [hw, not_false_eq_true, and_true]
      show (if ((chalOf 1 (f ⟨X, hX⟩) : Nat) : Int) = 1 then Res.ok () else .err .invalidArgument) = .ok () ↔ _
      split
      · rename_i h; simp only [true_iff]; exact_mod_cast h
      · rename_i h
        simp only [reduceCtorEq, false_iff]
        exact fun h' => h (by exact_mod_cast h')
    rw [← half_of_le (S := fun d => chalOf 1 d = 1) (fun d d' h1 h2 => by rw [h1, h2])
      (fun d d' h1 h2 => by
        have l1 := chalOf_lt 1 d
        have l2 := chalOf_lt 1 d'
        omega) |>.trans (by norm_num : (1 / 2 : ℚ) = (((0 : Nat) : ℚ) + 1) / 2 ^ (Int.toNat 1)),
      ← prob_at hX fun d => chalOf 1 d = 1]
    exact prob_congr hval

end PJC.RomSound
