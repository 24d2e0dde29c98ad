import Verif.Lemmas.BbSafety
import Verif.Props.BbSig
set_option linter.unusedSectionVars false
/-
C63, C75, C76: the oblivious signature on messages of an arbitrary peer.
-/
namespace PJC.Props
open PJC.Bb PJC.DJ Res

variable {G : Type} [AddCommGroup G] [DecidableEq G]
variable {gs : List Int} {h n : Int} {N s : Nat} {g : Int} {ys xs : List Int} {v : BbSig G}
  {sk : CsPrivate}

theorem sat_keyToProto {L : Nat} {ct : CsCt} (hc : Full L ct) :
    (Cs.ciphertextToProto ct).Sat (fun p => p.es.length = L) := by
  unfold Cs.ciphertextToProto bigNumVectorToProto
  refine (sat_toBytes hc.2.1).bind fun _ _ => ?_
  refine (sat_mapM (fun a ha => sat_toBytes (hc.2.2 a ha))).bind fun l hl => ?_
  exact sat_pure (by show l.length = L; rw [hl.1, hc.1])

/-- What `GenerateKeys` returns has the sizes that the functions taking a public key assume. -/
theorem keys_full (S : BbSetup gs h n N s g ys xs v sk) {wk wy : Nat} {dK dY : Nat → Int}
    {pk : BbPublicKey} {bsk : BbPrivateKey} (hk : generateKeys v wk wy dK dY = .ok (pk, bsk)) :
    pk.encK.length = ys.length ∧ pk.encY.length = ys.length ∧
    (∀ p ∈ pk.encK, p.es.length = ys.length) ∧ ∀ p ∈ pk.encY, p.es.length = ys.length := by
  have M := S.made
  obtain ⟨cfg, hP⟩ := M.pub
  unfold generateKeys at hk
  simp only [Res.bind_eq_ok, Res.pure_eq, Res.ok.injEq, Prod.mk.injEq] at hk
  obtain ⟨k, _, y, _, bk, _, bY, _, cts, hcts, rfl, _⟩ := hk
  have hone : ∀ i ∈ List.range v.cs.len, (encryptKeyAt v.cs k y dK dY i).Sat
      (fun x => x.1.es.length = ys.length ∧ x.2.es.length = ys.length) := by
    intro i _
    have henc : ∀ ms r, (Cs.encrypt v.cs ms r).Sat (Full ys.length) := by
      intro ms r
      unfold Cs.encrypt Cs.encryptAndGetRand
      split
      · exact sat_err
      · refine Sat.bind (P := fun x : CsCt × Int => Full ys.length x.1) ?_ fun x hx => sat_pure hx
        exact (sat_csEncrypt hP _ _).bind fun ct hct => sat_pure hct
    unfold encryptKeyAt
    refine (henc _ _).bind fun a ha => ?_
    refine (sat_keyToProto ha).bind fun b hb => ?_
    refine (henc _ _).bind fun c hc => ?_
    refine (sat_keyToProto hc).bind fun d hd => ?_
    exact sat_pure ⟨hb, hd⟩
  obtain ⟨h1, h2⟩ := (sat_mapM hone).2 cts hcts
  rw [List.length_range, hP.hlen] at h1
  refine ⟨by simpa using h1, by simpa using h1, ?_, ?_⟩
  · intro p hp
    obtain ⟨x, hx, rfl⟩ := List.mem_map.1 hp
    exact (h2 x hx).1
  · intro p hp
    obtain ⟨x, hx, rfl⟩ := List.mem_map.1 hp
    exact (h2 x hx).2

/-! ### C63 -/

/-- **C63** (partial): with the verifier's own keys, `VerifyRequest` returns a status for every
request and proof of a peer in which every ciphertext has as many components as the scheme has slots
and there are as many openings `masked_dummy_as_opening` as messages.  What is missing is that the
function refuses the other ones; it does not, see the two theorems below. -/
theorem C63_verify_request_partial (S : BbSetup gs h n N s g ys xs v sk) (wk wy : Nat)
    (dK dY : Nat → Int) (pk : BbPublicKey) (bsk : BbPrivateKey)
    (hk : generateKeys v wk wy dK dY = .ok (pk, bsk)) (H : Hashes) (req : BbRequest)
    (p : BbReqProof) (cm cr : Int) (hcm : 0 ≤ cm) (hcr : 0 ≤ cr)
    (hopen : p.message2.asOpen.length = req.num)
    (hfull : ∀ c ∈ req.cts, c.es.length = ys.length) :
    verifyRequest H v pk req p cm cr = .ok () ∨ ∃ c, verifyRequest H v pk req p cm cr = .err c := by
  obtain ⟨h1, h2, h3, h4⟩ := keys_full S hk
  have := (S.made.sat_verifyRequest H (by omega) (by omega) h3 h4 hcm hcr hopen hfull).1
  cases hv : verifyRequest H v pk req p cm cr with
  | ok u => exact Or.inl rfl
  | err c => exact Or.inr ⟨c, rfl⟩
  | crash => rw [hv] at this; exact absurd this (by simp)
  | ub => rw [hv] at this; exact absurd this (by simp)

/-- The toy instance with the honest request and proof changed by a hostile client; the outcome of
the verification. -/
def toyBbHostile (f : BbRequest → BbRequest) (fp : BbReqProof → BbReqProof) : Res (Res Unit) := do
  let H : Hashes := ⟨id, id, fun _ => 255 :: List.replicate 63 1, fun _ b => b⟩
  let ped ← Ped.create toyBbGs 7 46189 2
  let cs ← Cs.newPublic ⟨false, 3⟩ 221 2 3 toyBbYs
  let sk ← Cs.newPrivate ⟨true, 2⟩ 221 2 3 toyBbYs toyBbXs
  let v ← create toyBbParams toyEc cs ped
  let (pk, bsk) ← generateKeys v 4 6 (fun i => 2 + i) (fun i => 4 + i)
  let cm ← Ped.commitWithRand ped [1, 2, 10] 55
  let cr ← Ped.commitWithRand ped [3, 0, 9] 66
  let (req, π, st) ← generateRequest H v [1, 2, 10] [3, 0, 9] pk cm 55 cr 66 toyReqDraws
  return verifyRequest H v pk (f req) (fp π) cm cr

theorem toyBbHostile_inv {f : BbRequest → BbRequest} {fp : BbReqProof → BbReqProof} {r : Res Unit}
    (h : toyBbHostile f fp = .ok r) :
    ∃ (v : BbSig (ZMod 11)) (sk : CsPrivate) (pk : BbPublicKey) (bsk : BbPrivateKey)
      (H : Hashes) (cm cr : Int) (req : BbRequest) (π : BbReqProof) (st : List Bytes),
      BbSetup toyBbGs 7 46189 221 2 3 toyBbYs toyBbXs v sk ∧
      BbRun toyBbGs 221 toyBbYs v pk bsk [1, 2, 10] [3, 0, 9] cm 55 cr 66 ∧
      generateRequest H v [1, 2, 10] [3, 0, 9] pk cm 55 cr 66 toyReqDraws = .ok (req, π, st) ∧
      verifyRequest H v pk (f req) (fp π) cm cr = r := by
  unfold toyBbHostile at h
  simp only [Res.bind_eq_ok, Res.pure_eq, Res.ok.injEq] at h
  obtain ⟨ped, hped, cs, hcs, sk, hsk, v, hv, ⟨pk, bsk⟩, hk, cm, hcm, cr, hcr, ⟨req, π, st⟩, hreq,
    hver⟩ := h
  obtain ⟨S, R⟩ := toyBb_hyps hped hcs hsk hv hk hcm hcr
  exact ⟨v, sk, pk, bsk, _, cm, cr, req, π, st, S, R, hreq, hver⟩

/-- The property fails: dropping `masked_dummy_as_opening` from an honest proof makes `VerifyRequest`
read beyond the end of a vector. -/
theorem C63_missing_openings_fails : ∃ (v : BbSig (ZMod 11)) (sk : CsPrivate) (pk : BbPublicKey)
    (bsk : BbPrivateKey) (H : Hashes) (cm cr : Int) (req : BbRequest) (π : BbReqProof)
    (st : List Bytes), BbSetup toyBbGs 7 46189 221 2 3 toyBbYs toyBbXs v sk ∧
    BbRun toyBbGs 221 toyBbYs v pk bsk [1, 2, 10] [3, 0, 9] cm 55 cr 66 ∧
    generateRequest H v [1, 2, 10] [3, 0, 9] pk cm 55 cr 66 toyReqDraws = .ok (req, π, st) ∧
    verifyRequest H v pk req { π with message2 := { π.message2 with asOpen := [] } } cm cr = .ub :=
  toyBbHostile_inv (f := id) (fp := fun π => { π with message2 := { π.message2 with asOpen := [] } })
    (by decide +kernel)

/-- The property fails: so does dropping the components of the ciphertexts of an honest request. -/
theorem C63_short_ciphertexts_fails : ∃ (v : BbSig (ZMod 11)) (sk : CsPrivate) (pk : BbPublicKey)
    (bsk : BbPrivateKey) (H : Hashes) (cm cr : Int) (req : BbRequest) (π : BbReqProof)
    (st : List Bytes), BbSetup toyBbGs 7 46189 221 2 3 toyBbYs toyBbXs v sk ∧
    BbRun toyBbGs 221 toyBbYs v pk bsk [1, 2, 10] [3, 0, 9] cm 55 cr 66 ∧
    generateRequest H v [1, 2, 10] [3, 0, 9] pk cm 55 cr 66 toyReqDraws = .ok (req, π, st) ∧
    verifyRequest H v pk { req with cts := req.cts.map (fun c => { c with es := [] }) } π cm cr =
      .ub :=
  toyBbHostile_inv (f := fun req => { req with cts := req.cts.map (fun c => { c with es := [] }) })
    (fp := id) (by decide +kernel)

/-- The hypotheses of the partial theorem hold for the honest request. -/
example : ∃ (v : BbSig (ZMod 11)) (sk : CsPrivate) (pk : BbPublicKey)
    (bsk : BbPrivateKey) (H : Hashes) (cm cr : Int) (req : BbRequest) (π : BbReqProof)
    (st : List Bytes), BbSetup toyBbGs 7 46189 221 2 3 toyBbYs toyBbXs v sk ∧
    BbRun toyBbGs 221 toyBbYs v pk bsk [1, 2, 10] [3, 0, 9] cm 55 cr 66 ∧
    generateRequest H v [1, 2, 10] [3, 0, 9] pk cm 55 cr 66 toyReqDraws = .ok (req, π, st) ∧
    verifyRequest H v pk req π cm cr = .ok () :=
  toyBbHostile_inv (f := id) (fp := id) (by decide +kernel)

/-! ### C75 -/

/-- **C75**: for a request the client generated itself, `VerifyResponse` returns a status for every
response and proof a signer can send, and whenever it accepts, `ExtractResults` returns one point
per message. -/
theorem C75_verify_response (S : BbSetup gs h n N s g ys xs v sk) (pk : BbPublicKey)
    (bsk : BbPrivateKey) (ms rs : List Int) (cm om cr orr : Int)
    (R : BbRun gs N ys v pk bsk ms rs cm om cr orr) (H : Hashes) (d : ReqDraws) (req : BbRequest)
    (π : BbReqProof) (st : List Bytes)
    (hreq : generateRequest H v ms rs pk cm om cr orr d = .ok (req, π, st)) (H' : Hashes)
    (resp : List Bytes) (p : BbRespProof) :
    (verifyResponse H' v pk resp p req cm cr = .ok () ∧
      ∃ σs, extractResults v resp st = .ok σs ∧ σs.length = ms.length) ∨
    ∃ c, verifyResponse H' v pk resp p req cm cr = .err c := by
  have M := S.made
  obtain ⟨cfg, hP⟩ := M.pub
  obtain ⟨req', π₁, st', w, cts, k, y, hk, hy, hw, hst, hnum, henc, hgen, -, hcm, hcr⟩ :=
    bb_run S R H d
  rw [hgen] at hreq
  split at hreq
  swap
  · cases hreq
  rename_i hu
  simp only [Res.ok.injEq, Prod.mk.injEq] at hreq
  obtain ⟨rfl, rfl, rfl⟩ := hreq
  have Q := henc hu
  have hlen : req'.cts.length = numCts req'.num ys.length := by
    rw [Q.proto, List.length_map]
    exact Q.len
  have hfull : ∀ c ∈ req'.cts, c.es.length = ys.length := by
    rw [Q.proto]
    intro c hc
    obtain ⟨x, hx, rfl⟩ := List.mem_map.1 hc
    simpa [ctB, vecB] using (Q.wf x hx).len
  have hs := M.sat_verifyResponse H' (pk := pk) (resp := resp) (p := p) hcm hcr hlen hfull
  cases hv : verifyResponse H' v pk resp p req' cm cr with
  | err c => exact Or.inr ⟨c, rfl⟩
  | crash => rw [hv] at hs; exact absurd hs.1 (by simp)
  | ub => rw [hv] at hs; exact absurd hs.1 (by simp)
  | ok u =>
    refine Or.inl ⟨rfl, ?_⟩
    unfold verifyResponse at hv
    split at hv
    · cases hv
    split at hv
    · cases hv
    split at hv
    · cases hv
    rename_i h1 h2 h3
    simp only [Res.bind_eq_ok] at hv
    obtain ⟨_, _, sigs, hsigs, -⟩ := hv
    have hl : sigs.length = resp.length := (sat_parseEc resp).2 sigs hsigs
    have hsl : st'.length = ms.length := by
      rw [hst, hw]
      simp [vecB, secretP]
    unfold extractResults
    rw [hsigs, Res.ok_bind]
    have hm : ∀ i ∈ List.range sigs.length,
        extractOne sigs (parseBigNumVectorProto st') i =
          .ok ((parseBigNumVectorProto st').getD i 0 • sigs.getD i 0) := by
      intro i hi
      have hi' := List.mem_range.1 hi
      have hi2 : i < (parseBigNumVectorProto st').length := by rw [parse_length]; omega
      unfold extractOne idx
      rw [getElem?_getD 0 hi', getElem?_getD 0 hi2]
      rfl
    refine ⟨_, mapM_eq_map hm, ?_⟩
    simp
    omega

/-! ### C76 -/

/-- **C76**: once `VerifyRequest` has accepted a request, `GenerateResponseAndProof` returns a status
on it, whatever the peer put into it. -/
theorem C76_response_after_verification (S : BbSetup gs h n N s g ys xs v sk) (pk : BbPublicKey)
    (H H' : Hashes) (req : BbRequest) (p : BbReqProof) (cm cr : Int)
    (hver : verifyRequest H v pk req p cm cr = .ok ()) (d : RespDraws) :
    (∃ r, generateResponse H' v sk req pk cm cr d = .ok r) ∨
    ∃ c, generateResponse H' v sk req pk cm cr d = .err c := by
  have M := S.made
  obtain ⟨cfg, hP⟩ := M.pub
  unfold verifyRequest at hver
  simp only [Res.bind_eq_ok] at hver
  obtain ⟨_, h1, _, h2, _, h3, -⟩ := hver
  have hz := (sat_requestSizes (v := v) (req := req) (p := p)
    (by rw [hP.hlen]; have := M.len0; omega)).2 _ h1
  have hcm := (toBytes_eq_ok h2).1
  have hcr := (toBytes_eq_ok h3).1
  have hs := (M.sat_generateResponse S.priv H' (pk := pk) hcm hcr (by rw [hz.cts, hP.hlen]) d).1
  cases hv : generateResponse H' v sk req pk cm cr d with
  | ok r => exact Or.inl ⟨r, rfl⟩
  | err c => exact Or.inr ⟨c, rfl⟩
  | crash => rw [hv] at hs; exact absurd hs (by simp)
  | ub => rw [hv] at hs; exact absurd hs (by simp)

/-- Verification cannot be skipped: on a request that announces messages but carries no ciphertexts,
the response generator erases beyond the end of a vector. -/
theorem C76_unverified_request_undefined (S : BbSetup gs h n N s g ys xs v sk) (pk : BbPublicKey)
    (H : Hashes) (cm cr : Int) (d : RespDraws) (k : Nat) (hk : 0 < k) (hk' : k ≤ gs.length) :
    generateResponse H v sk ⟨k, []⟩ pk cm cr d = .ub := by
  unfold generateResponse
  rw [if_neg (by rw [S.made.good.gs_eq]; simpa using hk')]
  simp [hk]

end PJC.Props
