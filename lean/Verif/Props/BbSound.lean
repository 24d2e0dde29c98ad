import Verif.Lemmas.BbReqSound
import Verif.Props.BbSig
set_option linter.unusedSectionVars false
/-
C94, C95: soundness of the proofs of the oblivious Boneh-Boyen signature.  What acceptance
establishes is spelled out in `RespAccepted` (Lemmas/BbSound.lean) and `ReqAccepted`
(Lemmas/BbReqSound.lean).
-/
namespace PJC.Props
open PJC.Bb PJC.DJ

variable {G : Type} [AddCommGroup G] [DecidableEq G]

/-! ### C94: the response proof -/

/-- **C94**, acceptance: whatever the signer sends, when the client accepts it then all relations
of the proof hold for some first message that the challenge is the hash of. -/
theorem C94_accepted (gs : List Int) (h n : Int) (N s : Nat) (g : Int) (ys xs : List Int)
    (v : BbSig G) (sk : CsPrivate) (S : BbSetup gs h n N s g ys xs v sk) (pk : BbPublicKey)
    (req : BbRequest) (cm cr : Int)
    (hreq : req.cts.length = (req.num + ys.length - 1) / ys.length) (H : Hashes)
    (resp : List Bytes) (p : BbRespProof) (hv : verifyResponse H v pk resp p req cm cr = .ok ()) :
    ∃ m, RespAccepted H gs h n N s g ys v pk resp p req cm cr m := by
  obtain ⟨m, _, A⟩ := S.made.response_accepted hreq hv
  exact ⟨m, A⟩

/-- **C94**, refusal: a proof of the right size, with masked values in range and a first message that
can be recomputed, is accepted exactly if its challenge is the hash; otherwise InvalidArgument. -/
theorem C94_wrong_challenge (gs : List Int) (h n : Int) (N s : Nat) (g : Int) (ys xs : List Int)
    (v : BbSig G) (sk : CsPrivate) (S : BbSetup gs h n N s g ys xs v sk) (pk : BbPublicKey)
    (req : BbRequest) (cm cr : Int) (H : Hashes) (resp : List Bytes) (p : BbRespProof)
    (h1 : resp.length = req.num) (h2 : p.xs.length = ys.length) (h3 : p.betas.length = req.num)
    (h4 : ∀ i < req.num, numAt p.betas i <
      2 ^ (2 * (v.params.chal + v.params.sec) + 1).toNat * (v.group.order : Int) ^ 3)
    (m : BbRespMessage1) (hm : respFirst v resp p req = .ok m) (c : Int)
    (hc : responseChallenge H v pk cm cr req resp (BN.ofBytes p.commitBetas) m = .ok c) :
    verifyResponse H v pk resp p req cm cr =
      if c = BN.ofBytes p.challenge then .ok () else .err .invalidArgument := by
  have M := S.made
  obtain ⟨cfg, P⟩ := M.pub
  unfold respFirst at hm
  simp only [Res.bind_eq_ok, Res.pure_eq, Res.ok.injEq] at hm
  obtain ⟨cts, hcts, sigs, hsigs, mGs, hGs, mEs, hEs, masked, hmasked, dC, hdC, mC, hmC, dYs, hdYs,
    mYs, hmYs, rfl⟩ := hm
  unfold verifyResponse
  rw [if_neg (by omega), if_neg (by rw [P.hlen]; omega), if_neg (by omega), hcts, Res.ok_bind, hsigs,
    Res.ok_bind]
  dsimp only
  rw [M.betasBound_ok.2, Res.ok_bind, if_neg, hGs, Res.ok_bind, hEs, Res.ok_bind, hmasked,
    Res.ok_bind, hdC, Res.ok_bind, hmC, Res.ok_bind, hdYs, Res.ok_bind, hmYs, Res.ok_bind, hc,
    Res.ok_bind]
  · by_cases he : c = BN.ofBytes p.challenge
    · rw [if_pos he, if_neg (by simpa using he)]
    · rw [if_neg he, if_pos he]
  · simp only [List.any_eq_true, decide_eq_true_eq, not_exists, not_and]
    intro x hx
    obtain ⟨i, hi, rfl⟩ := List.mem_iff_getElem.1 hx
    have hi' : i < p.betas.length := by rwa [parse_length] at hi
    have := h4 i (by omega)
    rw [← parse_getD hi', List.getD_eq_getElem _ _ hi] at this
    have e : dBetaB v * 2 = 2 ^ (2 * (v.params.chal + v.params.sec) + 1).toNat *
        (v.group.order : Int) ^ 3 := by
      have e1 : (2 * (v.params.chal + v.params.sec) + 1).toNat = 2 * tBits v + 1 := by
        unfold tBits
        have := M.chal0
        have := M.sec0
        omega
      rw [e1, pow_succ]
      unfold dBetaB
      ring
    rw [e]
    omega

/-- **C94**, special soundness: for a request that the client generated, whatever the signer answers:
if two proofs with the same first message and challenges different modulo the order are accepted for
the same response, then extraction returns the signature on every message.  The encryption modulus
must leave room for the ranges. -/
theorem C94_special_soundness (gs : List Int) (h n : Int) (N s : Nat) (g : Int) (ys xs : List Int)
    (v : BbSig G) (sk : CsPrivate) (S : BbSetup gs h n N s g ys xs v sk) (pk : BbPublicKey)
    (bsk : BbPrivateKey) (ms rs : List Int) (cm om cr orr : Int)
    (R : BbRun gs N ys v pk bsk ms rs cm om cr orr) (H : Hashes) (d : ReqDraws)
    (req : BbRequest) (π : BbReqProof) (st : List Bytes)
    (hreq : generateRequest H v ms rs pk cm om cr orr d = .ok (req, π, st))
    (hroom : 3 * 2 ^ (2 * (v.params.chal + v.params.sec).toNat) * (v.group.order : Int) ^ 3 ≤
      (N : Int) ^ s)
    (H₁ H₂ : Hashes) (resp : List Bytes) (p₁ p₂ : BbRespProof) (m : BbRespMessage1)
    (A₁ : RespAccepted H₁ gs h n N s g ys v pk resp p₁ req cm cr m)
    (A₂ : RespAccepted H₂ gs h n N s g ys v pk resp p₂ req cm cr m)
    (hc : ¬ BN.ofBytes p₁.challenge ≡ BN.ofBytes p₂.challenge [ZMOD v.group.order]) :
    ∃ σs, extractResults v resp st = .ok σs ∧ σs.length = ms.length ∧
      ∀ i < ms.length, IsBbSig v (BN.ofBytes bsk.k) (BN.ofBytes bsk.y) (ms.getD i 0)
        (rs.getD i 0) (σs.getD i 0) := by
  have M := S.made
  have hq := M.order
  obtain ⟨req', π₁, st', w, cts, k, y, hk, hy, hw, hst, hnum, henc, hgen, -, hcm, hcr⟩ :=
    bb_run S R H d
  rw [hgen] at hreq
  split at hreq
  swap
  · cases hreq
  rename_i hu
  simp only [Res.ok.injEq, Prod.mk.injEq] at hreq
  obtain ⟨rfl, rfl, rfl⟩ := hreq
  have hcc : ¬ (v.group.order : Int) ∣ BN.ofBytes p₁.challenge - BN.ofBytes p₂.challenge := by
    intro hd
    exact hc (Int.modEq_iff_dvd.2 hd).symm
  obtain ⟨h0, h3⟩ := M.response_sound S.priv (henc hu) A₁ A₂ hcc hroom
  rw [hnum] at h0 h3
  set β := betaP v.group.order k y w with hβ
  have has0 : ∀ a ∈ w.as, 0 ≤ a := by
    intro a ha
    rw [hw] at ha
    obtain ⟨i, _, rfl⟩ := List.mem_map.1 ha
    have := (M.aOf_ok (d.a i)).2.1
    omega
  have has : w.as = (List.range ms.length).map (fun i => aOf v (d.a i)) := by rw [hw]; rfl
  refine ⟨(List.range ms.length).map fun i => aOf v (d.a i) • sigP v (β i), ?_, by simp, ?_⟩
  · unfold extractResults
    rw [h3, Res.ok_bind, hst, parse_vecB has0, has]
    simp only [List.length_map, List.length_range]
    apply mapM_eq_map
    intro i hi
    have hi : i < ms.length := by simpa using hi
    unfold extractOne
    rw [idx_ok 0 (by simpa using hi), Res.ok_bind, idx_ok 0 (by simpa using hi), Res.ok_bind,
      getD_map_range _ _ hi, getD_map_range _ _ hi]
    rfl
  · intro i hi
    rw [getD_map_range _ _ hi]
    refine ⟨aOf v (d.a i) * BN.inv (β i) v.group.order, ?_, ?_⟩
    · obtain ⟨e1, _, _⟩ := BN.inv_spec (by omega : (0 : Int) < v.group.order)
        ((M.gcd_iff (β i)).2 (h0 i hi))
      have e := M.beta_secret (om := om) (orr := orr) R.sizes.1 d ys.length k y hi
      rw [← hw, ← hβ, hk, hy] at e
      refine Int.ModEq.trans (meq_of_eq ?_) ((e.symm.mul_right _).trans e1)
      ring
    · unfold sigP
      rw [smul_smul]

/-- **C94**, what a cheating signer can do: if extraction from a response does not return the
signatures, then for every first message all acceptable challenges are equal modulo the order. -/
theorem C94_one_challenge (gs : List Int) (h n : Int) (N s : Nat) (g : Int) (ys xs : List Int)
    (v : BbSig G) (sk : CsPrivate) (S : BbSetup gs h n N s g ys xs v sk) (pk : BbPublicKey)
    (bsk : BbPrivateKey) (ms rs : List Int) (cm om cr orr : Int)
    (R : BbRun gs N ys v pk bsk ms rs cm om cr orr) (H : Hashes) (d : ReqDraws)
    (req : BbRequest) (π : BbReqProof) (st : List Bytes)
    (hreq : generateRequest H v ms rs pk cm om cr orr d = .ok (req, π, st))
    (hroom : 3 * 2 ^ (2 * (v.params.chal + v.params.sec).toNat) * (v.group.order : Int) ^ 3 ≤
      (N : Int) ^ s) (resp : List Bytes)
    (hbad : ¬ ∃ σs, extractResults v resp st = .ok σs ∧ σs.length = ms.length ∧
      ∀ i < ms.length, IsBbSig v (BN.ofBytes bsk.k) (BN.ofBytes bsk.y) (ms.getD i 0)
        (rs.getD i 0) (σs.getD i 0)) (m : BbRespMessage1) (H₁ H₂ : Hashes) (p₁ p₂ : BbRespProof)
    (A₁ : RespAccepted H₁ gs h n N s g ys v pk resp p₁ req cm cr m)
    (A₂ : RespAccepted H₂ gs h n N s g ys v pk resp p₂ req cm cr m) :
    BN.ofBytes p₁.challenge ≡ BN.ofBytes p₂.challenge [ZMOD v.group.order] := by
  by_contra hc
  exact hbad (C94_special_soundness gs h n N s g ys xs v sk S pk bsk ms rs cm om cr orr R H d req π
    st hreq hroom H₁ H₂ resp p₁ p₂ m A₁ A₂ hc)

/-! ### C95: the request proof -/

/-- **C95**, acceptance: for the signer's own keys, whatever the client sends, when the request proof
is accepted then all its relations hold for some first message that the challenge is the hash of. -/
theorem C95_accepted (gs : List Int) (h n : Int) (N s : Nat) (g : Int) (ys xs : List Int)
    (v : BbSig G) (sk : CsPrivate) (S : BbSetup gs h n N s g ys xs v sk) (pk : BbPublicKey)
    (bsk : BbPrivateKey) (wk wy : Nat) (drawK drawY : Nat → Int)
    (hdk : ∀ i < ys.length, 0 ≤ drawK i ∧ Int.gcd (drawK i) N = 1)
    (hdy : ∀ i < ys.length, 0 ≤ drawY i ∧ Int.gcd (drawY i) N = 1)
    (hkeys : generateKeys v wk wy drawK drawY = .ok (pk, bsk)) (H : Hashes) (req : BbRequest)
    (p : BbReqProof) (cm cr : Int) (hv : verifyRequest H v pk req p cm cr = .ok ()) :
    ∃ m, ReqAccepted H gs h n N s g ys v pk req p cm cr m := by
  have M := S.made
  have U := M.units
  obtain ⟨k, y, hk1, hk2, hy1, hy2, hg⟩ := M.generateKeys_ok wk wy hdk hdy
  rw [hg] at hkeys
  simp only [Res.ok.injEq, Prod.mk.injEq] at hkeys
  obtain ⟨rfl, rfl⟩ := hkeys
  have K := M.keyOk (keyCts_wf U k drawK) (keyCts_wf U y drawY) (keyCts_length ..)
    (keyCts_length ..)
  obtain ⟨m, _, A⟩ := M.request_accepted K hv
  exact ⟨m, A⟩

/-- The openings one gets from two accepted request proofs `p₁`, `p₂` with challenges `c₂ ≤ c₁`: with
`d = c₁ - c₂`, the `d`-th power of every commitment `C` of the statement is the quotient of the
commitment to the masked values of `p₁` and that to those of `p₂`.  The products of the messages
with the values `a` are committed in two ways. -/
structure ReqOpenings (gs : List Int) (h n : Int) (req : BbRequest) (cm cr : Int)
    (p₁ p₂ : BbReqProof) (d : Nat) : Prop where
  messages : cm ^ d * Ped.commitment gs h n (p₂.message2.messages.map BN.ofBytes)
      (BN.ofBytes p₂.message2.messagesOpen) ≡
    Ped.commitment gs h n (p₁.message2.messages.map BN.ofBytes)
      (BN.ofBytes p₁.message2.messagesOpen) [ZMOD n]
  rs : cr ^ d * Ped.commitment gs h n (p₂.message2.rs.map BN.ofBytes)
      (BN.ofBytes p₂.message2.rsOpen) ≡
    Ped.commitment gs h n (p₁.message2.rs.map BN.ofBytes)
      (BN.ofBytes p₁.message2.rsOpen) [ZMOD n]
  as : ∀ i < req.num, numAt p₁.commitAs i ^ d * (gs.getD i 0 ^ (numAt p₂.message2.as i).toNat *
      h ^ (numAt p₂.message2.asOpen i).toNat) ≡
    gs.getD i 0 ^ (numAt p₁.message2.as i).toNat * h ^ (numAt p₁.message2.asOpen i).toNat [ZMOD n]
  bs : BN.ofBytes p₁.commitBs ^ d * Ped.commitment gs h n (p₂.message2.bs.map BN.ofBytes)
      (BN.ofBytes p₂.message2.bsOpen) ≡
    Ped.commitment gs h n (p₁.message2.bs.map BN.ofBytes) (BN.ofBytes p₁.message2.bsOpen) [ZMOD n]
  alphas : BN.ofBytes p₁.commitAlphas ^ d * Ped.commitment gs h n
      (p₂.message2.alphas.map BN.ofBytes) (BN.ofBytes p₂.message2.alphasOpen1) ≡
    Ped.commitment gs h n (p₁.message2.alphas.map BN.ofBytes)
      (BN.ofBytes p₁.message2.alphasOpen1) [ZMOD n]
  alphasProduct : BN.ofBytes p₁.commitAlphas ^ d * (h ^ (BN.ofBytes p₂.message2.alphasOpen2).toNat *
      ∏ i ∈ Finset.range req.num, numAt p₁.commitAs i ^ (numAt p₂.message2.messages i).toNat) ≡
    h ^ (BN.ofBytes p₁.message2.alphasOpen2).toNat *
      ∏ i ∈ Finset.range req.num, numAt p₁.commitAs i ^ (numAt p₁.message2.messages i).toNat
    [ZMOD n]
  gammas : BN.ofBytes p₁.commitGammas ^ d * Ped.commitment gs h n
      (p₂.message2.gammas.map BN.ofBytes) (BN.ofBytes p₂.message2.gammasOpen1) ≡
    Ped.commitment gs h n (p₁.message2.gammas.map BN.ofBytes)
      (BN.ofBytes p₁.message2.gammasOpen1) [ZMOD n]
  gammasProduct : BN.ofBytes p₁.commitGammas ^ d * (h ^ (BN.ofBytes p₂.message2.gammasOpen2).toNat *
      ∏ i ∈ Finset.range req.num, numAt p₁.commitAs i ^ (numAt p₂.message2.rs i).toNat) ≡
    h ^ (BN.ofBytes p₁.message2.gammasOpen2).toNat *
      ∏ i ∈ Finset.range req.num, numAt p₁.commitAs i ^ (numAt p₁.message2.rs i).toNat
    [ZMOD n]

/-- **C95**, special soundness: two accepted request proofs for the same statement (request,
commitments and commitments in the proof) and the same first message open the `d`-th power of every
commitment, `d` being the difference of the challenges. -/
theorem C95_openings (gs : List Int) (h n : Int) (N s : Nat) (g : Int) (ys : List Int)
    (v : BbSig G) (pk : BbPublicKey) (H₁ H₂ : Hashes) (req : BbRequest)
    (p₁ p₂ : BbReqProof) (cm cr : Int) (m : BbReqMessage1)
    (A₁ : ReqAccepted H₁ gs h n N s g ys v pk req p₁ cm cr m)
    (A₂ : ReqAccepted H₂ gs h n N s g ys v pk req p₂ cm cr m)
    (hst : p₂.commitAs = p₁.commitAs ∧ p₂.commitBs = p₁.commitBs ∧
      p₂.commitAlphas = p₁.commitAlphas ∧ p₂.commitGammas = p₁.commitGammas)
    (hc : BN.ofBytes p₂.challenge ≤ BN.ofBytes p₁.challenge) :
    ReqOpenings gs h n req cm cr p₁ p₂
      (BN.ofBytes p₁.challenge - BN.ofBytes p₂.challenge).toNat := by
  obtain ⟨s1, s2, s3, s4⟩ := hst
  have hc0 : 0 ≤ BN.ofBytes p₂.challenge := BN.ofBytes_nonneg _
  have e : (BN.ofBytes p₁.challenge - BN.ofBytes p₂.challenge).toNat =
      (BN.ofBytes p₁.challenge).toNat - (BN.ofBytes p₂.challenge).toNat := by omega
  have hle : (BN.ofBytes p₂.challenge).toNat ≤ (BN.ofBytes p₁.challenge).toNat := by omega
  rw [e]
  have a2 := A₂.as
  have b2 := A₂.bs
  have al1 := A₂.alphas1
  have al2 := A₂.alphas2
  have ga1 := A₂.gammas1
  have ga2 := A₂.gammas2
  rw [s1] at a2 al2 ga2
  rw [s2] at b2
  rw [s3] at al1 al2
  rw [s4] at ga1 ga2
  exact ⟨diff_of_two hle A₁.messages A₂.messages, diff_of_two hle A₁.rs A₂.rs,
    fun i hi => diff_of_two hle (A₁.as i hi) (a2 i hi), diff_of_two hle A₁.bs b2,
    diff_of_two hle A₁.alphas1 al1, diff_of_two hle A₁.alphas2 al2,
    diff_of_two hle A₁.gammas1 ga1, diff_of_two hle A₁.gammas2 ga2⟩

/-- What the masked values of a proof stand for in slot `t`: `alpha + b q + k a + y gamma`, or 0
beyond the number of messages. -/
def maskedBeta (q k y : Int) (num : Nat) (p : BbReqProof) (t : Nat) : Int :=
  if t < num then numAt p.message2.alphas t + numAt p.message2.bs t * q +
    k * numAt p.message2.as t + y * numAt p.message2.gammas t else 0

/-- **C95**, the ciphertexts: under the signer's own keys, two accepted request proofs for the same
request and the same first message determine what the ciphertexts of the request encrypt: the
`d`-th power of ciphertext `i` decrypts, slot by slot, to the difference of the values the two
sets of masked exponents stand for. -/
theorem C95_decrypts (gs : List Int) (h n : Int) (N s : Nat) (g : Int) (ys xs : List Int)
    (v : BbSig G) (sk : CsPrivate) (S : BbSetup gs h n N s g ys xs v sk) (pk : BbPublicKey)
    (bsk : BbPrivateKey) (wk wy : Nat) (drawK drawY : Nat → Int)
    (hdk : ∀ i < ys.length, 0 ≤ drawK i ∧ Int.gcd (drawK i) N = 1)
    (hdy : ∀ i < ys.length, 0 ≤ drawY i ∧ Int.gcd (drawY i) N = 1)
    (hkeys : generateKeys v wk wy drawK drawY = .ok (pk, bsk)) (H₁ H₂ : Hashes) (req : BbRequest)
    (p₁ p₂ : BbReqProof) (cm cr : Int) (m : BbReqMessage1)
    (A₁ : ReqAccepted H₁ gs h n N s g ys v pk req p₁ cm cr m)
    (A₂ : ReqAccepted H₂ gs h n N s g ys v pk req p₂ cm cr m)
    (hc : BN.ofBytes p₂.challenge ≤ BN.ofBytes p₁.challenge) (i : Nat) (hi : i < req.cts.length) :
    ∃ ct ct', Cs.parseCiphertextProto v.cs (req.cts.getD i ⟨[], []⟩) = .ok ct ∧
      Cs.multiply v.cs ct (BN.ofBytes p₁.challenge - BN.ofBytes p₂.challenge) = .ok ct' ∧
      Cs.decrypt sk ct' = .ok ((List.range ys.length).map fun j =>
        (maskedBeta v.group.order (BN.ofBytes bsk.k) (BN.ofBytes bsk.y) req.num p₁
            (i * ys.length + j) -
          maskedBeta v.group.order (BN.ofBytes bsk.k) (BN.ofBytes bsk.y) req.num p₂
            (i * ys.length + j)) % (N : Int) ^ s) := by
  have M := S.made
  obtain ⟨k, y, hk1, hk2, hy1, hy2, hg⟩ := M.generateKeys_ok wk wy hdk hdy
  rw [hg] at hkeys
  simp only [Res.ok.injEq, Prod.mk.injEq] at hkeys
  obtain ⟨rfl, rfl⟩ := hkeys
  rw [ofBytes_encB (by omega), ofBytes_encB (by omega)]
  exact M.request_decrypts S.priv (by omega) (by omega) hdk hdy A₁ A₂ hc hi

/-! ### A toy instance

As in Props/BbSig.lean, with encryption modulus 221³: the same draws with two hash functions whose
challenges are 1 and 0. -/

deriving instance DecidableEq for CsCtProto
deriving instance DecidableEq for BbReqMessage1
deriving instance DecidableEq for BbRespMessage1

def toyHash (b : Byte) : Hashes := ⟨id, id, fun _ => b :: List.replicate 63 1, fun _ b => b⟩

def toyBbSound : Res Bool := do
  let ped ← Ped.create toyBbGs 7 46189 2
  let cs ← Cs.newPublic ⟨false, 3⟩ 221 3 3 toyBbYs
  let sk ← Cs.newPrivate ⟨true, 2⟩ 221 3 3 toyBbYs toyBbXs
  let v ← create toyBbParams toyEc cs ped
  let (pk, _) ← generateKeys v 4 6 (fun i => 2 + i) (fun i => 4 + i)
  let cm ← Ped.commitWithRand ped [1, 2, 10] 55
  let cr ← Ped.commitWithRand ped [3, 0, 9] 66
  let (req, π₁, _) ← generateRequest (toyHash 255) v [1, 2, 10] [3, 0, 9] pk cm 55 cr 66 toyReqDraws
  let (_, π₂, _) ← generateRequest (toyHash 0) v [1, 2, 10] [3, 0, 9] pk cm 55 cr 66 toyReqDraws
  verifyRequest (toyHash 255) v pk req π₁ cm cr
  verifyRequest (toyHash 0) v pk req π₂ cm cr
  let (resp, p₁) ← generateResponse (toyHash 255) v sk req pk cm cr toyRespDraws
  let (_, p₂) ← generateResponse (toyHash 0) v sk req pk cm cr toyRespDraws
  verifyResponse (toyHash 255) v pk resp p₁ req cm cr
  verifyResponse (toyHash 0) v pk resp p₂ req cm cr
  let f₁ ← reqFirst v pk req π₁ cm cr
  let f₂ ← reqFirst v pk req π₂ cm cr
  let e₁ ← respFirst v resp p₁ req
  let e₂ ← respFirst v resp p₂ req
  return decide (f₁ = f₂ ∧ e₁ = e₂ ∧ π₂.commitAs = π₁.commitAs ∧ π₂.commitBs = π₁.commitBs ∧
    π₂.commitAlphas = π₁.commitAlphas ∧ π₂.commitGammas = π₁.commitGammas ∧
    BN.ofBytes π₁.challenge = 1 ∧ BN.ofBytes π₂.challenge = 0 ∧ BN.ofBytes p₁.challenge = 1 ∧
    BN.ofBytes p₂.challenge = 0)

theorem toyBb3_hyps {ped : Pedersen} (hped : Ped.create toyBbGs 7 46189 2 = .ok ped)
    {cs : CsPublic} {cfg cfg' : ExpCfg} (hcs : Cs.newPublic cfg 221 3 3 toyBbYs = .ok cs)
    {sk : CsPrivate} (hsk : Cs.newPrivate cfg' 221 3 3 toyBbYs toyBbXs = .ok sk)
    {v : BbSig (ZMod 11)} (hv : create toyBbParams toyEc cs ped = .ok v)
    {pk : BbPublicKey} {bsk : BbPrivateKey}
    (hk : generateKeys v 4 6 (fun i => 2 + i) (fun i => 4 + i) = .ok (pk, bsk)) {cm cr : Int}
    (hcm : Ped.commitWithRand ped [1, 2, 10] 55 = .ok cm)
    (hcr : Ped.commitWithRand ped [3, 0, 9] 66 = .ok cr) :
    BbSetup toyBbGs 7 46189 221 3 3 toyBbYs toyBbXs v sk ∧
    BbRun toyBbGs 221 toyBbYs v pk bsk [1, 2, 10] [3, 0, 9] cm 55 cr 66 := by
  obtain ⟨e1, e2, rfl, rfl⟩ := create_eq_ok hv
  refine ⟨⟨e2 ▸ toyEc_lawful, by decide, by decide,
    by decide, ⟨2, by decide, by decide, hped⟩, by decide, ?_, by decide, ⟨_, hcs⟩, ⟨_, hsk⟩,
    by rw [e1, e2]; exact hv, by rw [e1]; decide, by rw [e1]; decide⟩,
    ⟨⟨_, _, _, _, ?_, ?_, hk⟩, by decide, ?_, ?_, by decide, hcm, hcr⟩⟩
  · refine ⟨by decide, by decide, by decide, ?_⟩
    decide +kernel
  · decide
  · decide
  · rw [e2]
    show ∀ m ∈ [1, 2, 10], 0 ≤ m ∧ m < (11 : Int)
    decide
  · rw [e2]
    show ∀ m ∈ [3, 0, 9], 0 ≤ m ∧ m < (11 : Int)
    decide

/-- The hypotheses of C94 and C95 hold for the toy instance: room for the ranges, and two accepted
proofs of either kind with the same first message and different challenges. -/
theorem toyBb_sound : ∃ (v : BbSig (ZMod 11)) (sk : CsPrivate) (pk : BbPublicKey)
    (bsk : BbPrivateKey) (cm cr : Int) (H₁ H₂ : Hashes) (req : BbRequest) (π₁ π₂ : BbReqProof)
    (st : List Bytes) (f : BbReqMessage1) (resp : List Bytes) (p₁ p₂ : BbRespProof)
    (e : BbRespMessage1),
    BbSetup toyBbGs 7 46189 221 3 3 toyBbYs toyBbXs v sk ∧
    BbRun toyBbGs 221 toyBbYs v pk bsk [1, 2, 10] [3, 0, 9] cm 55 cr 66 ∧
    generateKeys v 4 6 (fun i => 2 + i) (fun i => 4 + i) = .ok (pk, bsk) ∧
    generateRequest H₁ v [1, 2, 10] [3, 0, 9] pk cm 55 cr 66 toyReqDraws = .ok (req, π₁, st) ∧
    3 * 2 ^ (2 * (v.params.chal + v.params.sec).toNat) * (v.group.order : Int) ^ 3 ≤
      (221 : Int) ^ 3 ∧
    ReqAccepted H₁ toyBbGs 7 46189 221 3 3 toyBbYs v pk req π₁ cm cr f ∧
    ReqAccepted H₂ toyBbGs 7 46189 221 3 3 toyBbYs v pk req π₂ cm cr f ∧
    (π₂.commitAs = π₁.commitAs ∧ π₂.commitBs = π₁.commitBs ∧
      π₂.commitAlphas = π₁.commitAlphas ∧ π₂.commitGammas = π₁.commitGammas) ∧
    BN.ofBytes π₂.challenge < BN.ofBytes π₁.challenge ∧
    RespAccepted H₁ toyBbGs 7 46189 221 3 3 toyBbYs v pk resp p₁ req cm cr e ∧
    RespAccepted H₂ toyBbGs 7 46189 221 3 3 toyBbYs v pk resp p₂ req cm cr e ∧
    ¬ BN.ofBytes p₁.challenge ≡ BN.ofBytes p₂.challenge [ZMOD v.group.order] := by
  have h : toyBbSound = .ok true := by decide +kernel
  unfold toyBbSound at h
  simp only [Res.bind_eq_ok, Res.pure_eq, Res.ok.injEq, decide_eq_true_eq] at h
  obtain ⟨ped, hped, cs, hcs, sk, hsk, v, hv, ⟨pk, bsk⟩, hk, cm, hcm, cr, hcr, ⟨req, π₁, st⟩, hreq,
    ⟨_, π₂, _⟩, -, _, w1, _, w2, ⟨resp, p₁⟩, -, ⟨_, p₂⟩, -, _, u1, _, u2, f₁, hf1, f₂, hf2, e₁, he1,
    e₂, he2, rfl, rfl, t1, t2, t3, t4, c1, c2, c3, c4⟩ := h
  obtain ⟨S, R⟩ := toyBb3_hyps hped hcs hsk hv hk hcm hcr
  have M := S.made
  have U := M.units
  obtain ⟨ev1, ev2, -, -⟩ := create_eq_ok hv
  have hroom : 3 * 2 ^ (2 * (v.params.chal + v.params.sec).toNat) * (v.group.order : Int) ^ 3 ≤
      (221 : Int) ^ 3 := by
    rw [ev1, ev2]
    decide
  have hshape : req.cts.length = numCts req.num toyBbYs.length := by
    obtain ⟨req', π₁', st', w, cts, k, y, -, -, -, -, hnum, henc, hgen, -, -⟩ :=
      bb_run S R (toyHash 255) toyReqDraws
    rw [hgen] at hreq
    split at hreq
    swap
    · cases hreq
    rename_i hu
    simp only [Res.ok.injEq, Prod.mk.injEq] at hreq
    obtain ⟨rfl, -, -⟩ := hreq
    have := henc hu
    rw [this.proto, List.length_map, this.len]
  obtain ⟨e, he, A1⟩ := M.response_accepted hshape u1
  obtain ⟨e', he', A2⟩ := M.response_accepted hshape u2
  rw [he1] at he
  rw [he2] at he'
  cases he
  cases he'
  have hacc : ∀ {H : Hashes} {p : BbReqProof}, verifyRequest H v pk req p cm cr = .ok () →
      ∃ m, reqFirst v pk req p cm cr = .ok m ∧
        ReqAccepted H toyBbGs 7 46189 221 3 3 toyBbYs v pk req p cm cr m := by
    intro H p hp
    have hd1 : ∀ i < toyBbYs.length, (0 : Int) ≤ 2 + i ∧ Int.gcd (2 + i) (221 : Nat) = 1 := by
      decide
    have hd2 : ∀ i < toyBbYs.length, (0 : Int) ≤ 4 + i ∧ Int.gcd (4 + i) (221 : Nat) = 1 := by
      decide
    obtain ⟨k, y, hk1, hk2, hy1, hy2, hg⟩ := M.generateKeys_ok 4 6
      (drawK := fun i => 2 + (i : Int)) (drawY := fun i => 4 + (i : Int)) hd1 hd2
    rw [hg] at hk
    simp only [Res.ok.injEq, Prod.mk.injEq] at hk
    obtain ⟨rfl, rfl⟩ := hk
    exact M.request_accepted (M.keyOk (keyCts_wf U k _) (keyCts_wf U y _) (keyCts_length ..)
      (keyCts_length ..)) hp
  obtain ⟨f, hf, B1⟩ := hacc w1
  obtain ⟨f', hf', B2⟩ := hacc w2
  rw [hf1] at hf
  rw [hf2] at hf'
  cases hf
  cases hf'
  refine ⟨v, sk, pk, bsk, cm, cr, _, _, req, π₁, π₂, st, _, resp, p₁, p₂, _, S, R, hk, hreq, hroom,
    B1, B2, ⟨t1, t2, t3, t4⟩, by rw [c1, c2]; decide, A1, A2, ?_⟩
  rw [c3, c4, ev2]
  decide

end PJC.Props
