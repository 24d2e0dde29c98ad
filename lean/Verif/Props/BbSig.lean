import Verif.Lemmas.BbResponse
import Verif.Props.Ec
set_option linter.unusedSectionVars false
/-
C60-C62: the oblivious Boneh-Boyen signature.
-/
namespace PJC.Props
open PJC.Bb PJC.DJ

variable {G : Type} [AddCommGroup G] [DecidableEq G]

/-- What the parties agree on before signing: a group of prime order, Pedersen parameters (bases
invertible modulo `n`), a Camenisch-Shoup key pair with the signer's private object `sk`, and a
signature object `v` that `Create` returned for them.  The bounds on the challenge length and the
security parameter are those below which the shifts and the random oracle are defined. -/
structure BbSetup (gs : List Int) (h n : Int) (N s : Nat) (g : Int) (ys xs : List Int)
    (v : BbSig G) (sk : CsPrivate) : Prop where
  lawful : v.group.Lawful
  modulus : 1 < n
  bases : ∀ g ∈ gs, Int.gcd g n = 1
  base : Int.gcd h n = 1
  pedersen : ∃ k, 1 ≤ k ∧ k < 31 ∧ Ped.create gs h n k = .ok v.ped
  encModulus : 1 < N
  keyPair : CsKeyPair N s g ys xs
  slots : ys ≠ []
  encPublic : ∃ cfg, Cs.newPublic cfg N s g ys = .ok v.cs
  encPrivate : ∃ cfg, Cs.newPrivate cfg N s g ys xs = .ok sk
  created : create v.params v.group v.cs v.ped = .ok v
  chal : v.params.chal ≤ 129000
  sec : v.params.sec ≤ 2 ^ 28

/-- Encryption randomness that the encryption function accepts: coprime to `N`, or 0. -/
def Usable (N : Nat) (r : Int) : Prop := Int.gcd r N = 1 ∨ r = 0

/-- A Boneh-Boyen signature on `(m, r)` under `(k, y)`: `base` times the inverse of `m + k + y r`
modulo the order of the group. -/
def IsBbSig (v : BbSig G) (k y m r : Int) (σ : G) : Prop :=
  ∃ j : Int, j * (m + k + y * r) ≡ 1 [ZMOD v.group.order] ∧ σ = j • v.base

/-- The randomness of the encryptions a request with `c` messages contains, and of those in the
first message of its proof. -/
def requestRandomness (v : BbSig G) (N L c : Nat) (d : ReqDraws) : List Int :=
  (List.range ((c + L - 1) / L)).map (fun i => (d.enc i : Int) % N) ++
    (List.range ((c + L - 1) / L)).map
      (fun i => (d.dummyEnc i : Int) % (N * 2 ^ (v.params.chal + v.params.sec).toNat))

section
variable {gs : List Int} {h n : Int} {N s : Nat} {g : Int} {ys xs : List Int} {v : BbSig G}
  {sk : CsPrivate}

theorem BbSetup.ysU (S : BbSetup gs h n N s g ys xs v sk) : ∀ y ∈ ys, Int.gcd y N = 1 := by
  intro y hy
  obtain ⟨i, hi, rfl⟩ := List.mem_iff_getElem.1 hy
  have hix : i < xs.length := by rw [← S.keyPair.2.1]; exact hi
  have e := S.keyPair.2.2.2 i hix
  rw [← getElem_getD 0 hi] at e
  have e' : ys[i] ≡ g ^ (xs.getD i 0).toNat [ZMOD (N : Int)] :=
    Int.ModEq.of_dvd (dvd_pow_self _ (by omega)) e
  have : Int.gcd (ys[i] % (N : Int)) N = Int.gcd (g ^ (xs.getD i 0).toNat % (N : Int)) N :=
    congrArg (fun z => Int.gcd z (N : Int)) e'
  rw [gcd_emod_left, gcd_emod_left] at this
  rw [this]
  exact gcd_pow_left S.keyPair.1 _

theorem BbSetup.made (S : BbSetup gs h n N s g ys xs v sk) : Made gs h n N s g ys v :=
  ⟨S.lawful, S.modulus, S.bases, S.base, S.pedersen, S.encModulus, S.keyPair.1, S.ysU, S.slots,
    S.encPublic, S.created, S.chal, S.sec⟩

theorem BbSetup.priv (S : BbSetup gs h n N s g ys xs v sk) : Priv N s g ys xs sk := by
  obtain ⟨cfg, h⟩ := S.encPrivate
  exact ⟨⟨cfg, Cs.newPrivate_good (by have := S.encModulus; omega) h⟩, S.keyPair.keyRel⟩

/-- The honest inputs of a request: keys from `GenerateKeys` (with draws that
`RelativelyPrimeRandomLessThan` can return), messages and nonces below the order of the group, and
commitments to them with the openings given. -/
structure BbRun (gs : List Int) (N : Nat) (ys : List Int) (v : BbSig G) (pk : BbPublicKey)
    (bsk : BbPrivateKey) (ms rs : List Int) (cm om cr orr : Int) : Prop where
  keys : ∃ wk wy drawK drawY, (∀ i < ys.length, 0 ≤ drawK i ∧ Int.gcd (drawK i) N = 1) ∧
    (∀ i < ys.length, 0 ≤ drawY i ∧ Int.gcd (drawY i) N = 1) ∧
    generateKeys v wk wy drawK drawY = .ok (pk, bsk)
  sizes : rs.length = ms.length ∧ ms.length ≤ gs.length
  messages : ∀ m ∈ ms, 0 ≤ m ∧ m < v.group.order
  nonces : ∀ r ∈ rs, 0 ≤ r ∧ r < v.group.order
  openings : 0 ≤ om ∧ 0 ≤ orr
  commitMessages : Ped.commitWithRand v.ped ms om = .ok cm
  commitNonces : Ped.commitWithRand v.ped rs orr = .ok cr

/-- The whole honest run, from which the three properties are read off. -/
theorem bb_run (S : BbSetup gs h n N s g ys xs v sk) {pk : BbPublicKey} {bsk : BbPrivateKey}
    {ms rs : List Int} {cm om cr orr : Int} (R : BbRun gs N ys v pk bsk ms rs cm om cr orr)
    (H : Hashes) (d : ReqDraws) :
    ∃ (req : BbRequest) (π : BbReqProof) (st : List Bytes) (w : Witness) (cts : List CsCt)
      (k y : Int), k = BN.ofBytes bsk.k ∧ y = BN.ofBytes bsk.y ∧
      w = secretP v n N ys.length ms rs om orr d ∧ st = vecB w.as ∧ req.num = ms.length ∧
      ((∀ r ∈ requestRandomness v N ys.length ms.length d, Usable N r) →
        ReqOk v gs N s ys xs req cts (betaP v.group.order k y w)) ∧
      generateRequest H v ms rs pk cm om cr orr d =
        (if ∀ r ∈ requestRandomness v N ys.length ms.length d, RandOk N r then .ok (req, π, st)
         else .err .invalidArgument) ∧
      verifyRequest H v pk req π cm cr =
        (if ∀ r ∈ parseBigNumVectorProto π.message2.enc, RandOk N r then .ok ()
         else .err .invalidArgument) ∧ 0 ≤ cm ∧ 0 ≤ cr := by
  have M := S.made
  have Gd := M.good
  have hn := M.n0
  have U := M.units
  have hN : (0 : Int) < N := by have := M.N1; omega
  obtain ⟨wk, wy, dK, dY, hdk, hdy, hkeys⟩ := R.keys
  obtain ⟨k, y, hk1, hk2, hy1, hy2, hg⟩ := M.generateKeys_ok wk wy hdk hdy
  rw [hg] at hkeys
  simp only [Res.ok.injEq, Prod.mk.injEq] at hkeys
  obtain ⟨rfl, rfl⟩ := hkeys
  have K := M.keyOk (keyCts_wf U k dK) (keyCts_wf U y dY) (keyCts_length ..) (keyCts_length ..)
  have vm : Ped.Valid gs ms om := ⟨R.sizes.2, fun m hm => (R.messages m hm).1, R.openings.1⟩
  have vr : Ped.Valid gs rs orr :=
    ⟨by rw [R.sizes.1]; exact R.sizes.2, fun m hm => (R.nonces m hm).1, R.openings.2⟩
  have ecm := R.commitMessages
  have ecr := R.commitNonces
  rw [Gd.commit vm] at ecm
  rw [Gd.commit vr] at ecr
  cases ecm
  cases ecr
  have hcm : 0 ≤ Ped.commitment gs h n ms om := Ped.commitment_nonneg hn _ _
  have hcr : 0 ≤ Ped.commitment gs h n rs orr := Ped.commitment_nonneg hn _ _
  obtain ⟨c, hc, hc0, hc1, hgen⟩ := M.generateRequest_eq H K d R.sizes.1 R.sizes.2
    (fun m hm => (R.messages m hm).1) (fun m hm => (R.nonces m hm).1) R.openings.1 R.openings.2
    hcm hcr
  have W := M.secretP_ok d R.sizes.1 (fun m hm => (R.messages m hm).1)
    (fun m hm => (R.nonces m hm).1) R.openings.1 R.openings.2 ys.length
  have B := M.secretP_bound (om := om) (orr := orr) d (fun m hm => (R.messages m hm).2)
    (fun m hm => (R.nonces m hm).2) ys.length
  have hver := M.verifyRequest_eq H K R.sizes.2 d W B hc0 hc1 rfl rfl rfl rfl rfl rfl hc
  obtain ⟨D, _⟩ := M.dummyP_ok ms.length d
  have Z := WitOk.mask hc0 D W
  have hrand : requestRandomness v N ys.length ms.length d =
      (secretP v n N ys.length ms rs om orr d).enc ++ (dummyP v n N ys.length ms.length d).enc := rfl
  refine ⟨reqP (prepP v gs h n N s g ys (keyCts ((N : Int) ^ (s + 1)) N g ys k dK)
    (keyCts ((N : Int) ^ (s + 1)) N g ys y dY) (secretP v n N ys.length ms rs om orr d)),
    _, _, _, (prepP v gs h n N s g ys (keyCts ((N : Int) ^ (s + 1)) N g ys k dK)
    (keyCts ((N : Int) ^ (s + 1)) N g ys y dY) (secretP v n N ys.length ms rs om orr d)).cts,
    k, y, ?_, ?_, rfl, rfl, rfl, ?_, ?_, hver.trans ?_, hcm, hcr⟩
  rotate_left 3
  · rw [hgen, hrand]
    congr 1
    simp only [List.forall_mem_append]
  · congr 1
    show _ = ∀ r ∈ parseBigNumVectorProto (vecB (Witness.mask c
      (dummyP v n N ys.length ms.length d) (secretP v n N ys.length ms rs om orr d)).enc), RandOk N r
    rw [parse_vecB Z.enc.2]
  · exact (ofBytes_encB (by omega)).symm
  · exact (ofBytes_encB (by omega)).symm
  · intro hr
    refine M.request_reqOk S.keyPair.keyRel (by omega) hk2 (by omega) hy2 hdk hdy R.sizes.2 W B ?_
    intro r hr'
    exact hr r (by rw [hrand]; exact List.mem_append_left _ hr')

end

/-! ### C61 -/

/-- **C61**: the request generator returns a request exactly if all its encryption randomness is
usable (and refuses with InvalidArgument otherwise); the request proof is then accepted for every
hash function, unless one of the masked encryption exponents in the proof is not usable as
encryption randomness, in which case the verifier refuses it with InvalidArgument. -/
theorem C61_request (gs : List Int) (h n : Int) (N s : Nat) (g : Int) (ys xs : List Int)
    (v : BbSig G) (sk : CsPrivate) (S : BbSetup gs h n N s g ys xs v sk) (pk : BbPublicKey)
    (bsk : BbPrivateKey) (ms rs : List Int) (cm om cr orr : Int)
    (R : BbRun gs N ys v pk bsk ms rs cm om cr orr) (H : Hashes) (d : ReqDraws) :
    ((∃ r ∈ requestRandomness v N ys.length ms.length d, ¬ Usable N r) ∧
      generateRequest H v ms rs pk cm om cr orr d = .err .invalidArgument) ∨
    ((∀ r ∈ requestRandomness v N ys.length ms.length d, Usable N r) ∧
      ∃ req π st, generateRequest H v ms rs pk cm om cr orr d = .ok (req, π, st) ∧
        ((∀ r ∈ parseBigNumVectorProto π.message2.enc, Usable N r) →
          verifyRequest H v pk req π cm cr = .ok ()) ∧
        ((∃ r ∈ parseBigNumVectorProto π.message2.enc, ¬ Usable N r) →
          verifyRequest H v pk req π cm cr = .err .invalidArgument)) := by
  obtain ⟨req, π, st, w, cts, k, y, -, -, -, -, -, -, hgen, hver, -⟩ := bb_run S R H d
  by_cases hu : ∀ r ∈ requestRandomness v N ys.length ms.length d, Usable N r
  · right
    refine ⟨hu, req, π, st, ?_, ?_, ?_⟩
    · exact hgen.trans (if_pos hu)
    · intro h1
      exact hver.trans (if_pos h1)
    · intro h1
      refine hver.trans (if_neg ?_)
      intro h2
      obtain ⟨r, hr, hr'⟩ := h1
      exact hr' (h2 r hr)
  · left
    refine ⟨by push Not at hu; exact hu, ?_⟩
    exact hgen.trans (if_neg hu)

/-! ### C62 -/

/-- The dummy exponents of the response proof, one per message. -/
def responseDummies (v : BbSig G) (c : Nat) (d : RespDraws) : List Int :=
  (List.range c).map (fun i => (d.betas i : Int) %
    (2 ^ (2 * (v.params.chal + v.params.sec).toNat) * (v.group.order : Int) ^ 3))

/-- **C62**: for a request that the generator returned, the response generator either refuses with
InvalidArgument, and then some `m + k + y r` is 0 modulo the order; or with Internal, and then one
of its dummy exponents is 0 modulo the order; or it returns a response whose proof is accepted for
every hash function. -/
theorem C62_response (gs : List Int) (h n : Int) (N s : Nat) (g : Int) (ys xs : List Int)
    (v : BbSig G) (sk : CsPrivate) (S : BbSetup gs h n N s g ys xs v sk) (pk : BbPublicKey)
    (bsk : BbPrivateKey) (ms rs : List Int) (cm om cr orr : Int)
    (R : BbRun gs N ys v pk bsk ms rs cm om cr orr) (H H' : Hashes) (d : ReqDraws)
    (req : BbRequest) (π : BbReqProof) (st : List Bytes)
    (hreq : generateRequest H v ms rs pk cm om cr orr d = .ok (req, π, st)) (d' : RespDraws) :
    (generateResponse H' v sk req pk cm cr d' = .err .invalidArgument ∧
      ∃ i < ms.length, ms.getD i 0 + BN.ofBytes bsk.k + BN.ofBytes bsk.y * rs.getD i 0 ≡ 0
        [ZMOD v.group.order]) ∨
    ((∀ i < ms.length, ¬ ms.getD i 0 + BN.ofBytes bsk.k + BN.ofBytes bsk.y * rs.getD i 0 ≡ 0
        [ZMOD v.group.order]) ∧
      ((generateResponse H' v sk req pk cm cr d' = .err .internal ∧
        ∃ b ∈ responseDummies v ms.length d', (v.group.order : Int) ∣ b) ∨
      ((∀ b ∈ responseDummies v ms.length d', ¬ (v.group.order : Int) ∣ b) ∧
        ∃ resp π', generateResponse H' v sk req pk cm cr d' = .ok (resp, π') ∧
          verifyResponse H' v pk resp π' req cm cr = .ok ()))) := by
  have M := S.made
  obtain ⟨req', π', st', w, cts, k, y, hk, hy, hw, hst, hnum, henc, hgen, -, hcm, hcr⟩ :=
    bb_run S R H d
  rw [hgen] at hreq
  split at hreq
  swap
  · cases hreq
  rename_i hu
  simp only [Res.ok.injEq, Prod.mk.injEq] at hreq
  obtain ⟨rfl, rfl, rfl⟩ := hreq
  subst hw
  have hb : ∀ i < ms.length, ((v.group.order : Int) ∣ betaP v.group.order k y
      (secretP v n N ys.length ms rs om orr d) i ↔
      ms.getD i 0 + BN.ofBytes bsk.k + BN.ofBytes bsk.y * rs.getD i 0 ≡ 0 [ZMOD v.group.order]) := by
    intro i hi
    have e := M.beta_secret (om := om) (orr := orr) R.sizes.1 d ys.length k y hi
    have hp := Nat.prime_iff_prime_int.1 M.lawful.prime
    have e1 : (v.group.order : Int) ∣ betaP v.group.order k y
        (secretP v n N ys.length ms rs om orr d) i ↔
        (v.group.order : Int) ∣ aOf v (d.a i) * (ms.getD i 0 + k + y * rs.getD i 0) := by
      rw [← Int.modEq_zero_iff_dvd, ← Int.modEq_zero_iff_dvd]
      exact ⟨fun h => e.symm.trans h, fun h => e.trans h⟩
    rw [e1, hp.dvd_mul, ← hk, ← hy, Int.modEq_zero_iff_dvd]
    have := M.aOf_ndvd (d.a i)
    tauto
  have hdm : ∀ i, (d'.betas i : Int) % dBetaB v = (d'.betas i : Int) %
      (2 ^ (2 * (v.params.chal + v.params.sec).toNat) * (v.group.order : Int) ^ 3) := by
    intro i
    congr 1
    unfold dBetaB tBits
    ring
  rcases M.response S.priv (henc hu) H' pk hcm hcr d' with ⟨h1, i, hi, h2⟩ | ⟨h0, h1⟩
  · left
    rw [hnum] at hi
    exact ⟨h1, i, hi, (hb i hi).1 h2⟩
  right
  rw [hnum] at h0 h1
  refine ⟨fun i hi h2 => h0 i hi ((hb i hi).2 h2), ?_⟩
  rcases h1 with ⟨h1, i, hi, h2⟩ | ⟨h1, resp, π', h2, h3, h4⟩
  · left
    refine ⟨h1, _, List.mem_map.2 ⟨i, by simpa using hi, rfl⟩, ?_⟩
    rw [← hdm]
    exact h2
  · right
    refine ⟨?_, resp, π', h2, h4⟩
    intro b hb'
    obtain ⟨i, hi, rfl⟩ := List.mem_map.1 hb'
    rw [← hdm]
    exact h1 i (by simpa using hi)

/-! ### C60 -/

/-- **C60**: when request and response were generated, extraction returns one point per message,
in order, and point `i` is the signature on message `i` with nonce `i` under the two keys. -/
theorem C60_signatures (gs : List Int) (h n : Int) (N s : Nat) (g : Int) (ys xs : List Int)
    (v : BbSig G) (sk : CsPrivate) (S : BbSetup gs h n N s g ys xs v sk) (pk : BbPublicKey)
    (bsk : BbPrivateKey) (ms rs : List Int) (cm om cr orr : Int)
    (R : BbRun gs N ys v pk bsk ms rs cm om cr orr) (H H' : Hashes) (d : ReqDraws)
    (req : BbRequest) (π : BbReqProof) (st : List Bytes)
    (hreq : generateRequest H v ms rs pk cm om cr orr d = .ok (req, π, st)) (d' : RespDraws)
    (resp : List Bytes) (π' : BbRespProof)
    (hresp : generateResponse H' v sk req pk cm cr d' = .ok (resp, π')) :
    ∃ σs, extractResults v resp st = .ok σs ∧ σs.length = ms.length ∧
      ∀ i < ms.length, IsBbSig v (BN.ofBytes bsk.k) (BN.ofBytes bsk.y) (ms.getD i 0)
        (rs.getD i 0) (σs.getD i 0) := by
  have M := S.made
  have hq := M.order
  obtain ⟨req', π₁, st', w, cts, k, y, hk, hy, hw, hst, hnum, henc, hgen, -, hcm, hcr⟩ :=
    bb_run S R H d
  rw [hgen] at hreq
  split at hreq
  swap
  · cases hreq
  rename_i hu
  simp only [Res.ok.injEq, Prod.mk.injEq] at hreq
  obtain ⟨rfl, rfl, rfl⟩ := hreq
  rcases M.response S.priv (henc hu) H' pk hcm hcr d' with ⟨h1, _⟩ | ⟨h0, ⟨h1, _⟩ | ⟨_, r, p, h2, h3, _⟩⟩
  · rw [h1] at hresp; cases hresp
  · rw [h1] at hresp; cases hresp
  rw [h2] at hresp
  simp only [Res.ok.injEq, Prod.mk.injEq] at hresp
  obtain ⟨rfl, rfl⟩ := hresp
  rw [hnum] at h0 h3
  set β := betaP v.group.order k y w with hβ
  have has0 : ∀ a ∈ w.as, 0 ≤ a := by
    intro a ha
    rw [hw] at ha
    obtain ⟨i, _, rfl⟩ := List.mem_map.1 ha
    have := (M.aOf_ok (d.a i)).2.1
    omega
  have has : w.as = (List.range ms.length).map (fun i => aOf v (d.a i)) := by rw [hw]; rfl
  refine ⟨(List.range ms.length).map fun i => aOf v (d.a i) • sigP v (β i), ?_, by simp, ?_⟩
  · unfold extractResults
    rw [h3, Res.ok_bind, hst, parse_vecB has0, has]
    simp only [List.length_map, List.length_range]
    apply mapM_eq_map
    intro i hi
    have hi : i < ms.length := by simpa using hi
    unfold extractOne
    rw [idx_ok 0 (by simpa using hi), Res.ok_bind, idx_ok 0 (by simpa using hi), Res.ok_bind,
      getD_map_range _ _ hi, getD_map_range _ _ hi]
    rfl
  · intro i hi
    rw [getD_map_range _ _ hi]
    refine ⟨aOf v (d.a i) * BN.inv (β i) v.group.order, ?_, ?_⟩
    · obtain ⟨e1, _, _⟩ := BN.inv_spec (by omega : (0 : Int) < v.group.order)
        ((M.gcd_iff (β i)).2 (h0 i hi))
      have e := M.beta_secret (om := om) (orr := orr) R.sizes.1 d ys.length k y hi
      rw [← hw, ← hβ, hk, hy] at e
      refine Int.ModEq.trans (meq_of_eq ?_) ((e.symm.mul_right _).trans e1)
      ring
    · unfold sigP
      rw [smul_smul]

/-! ### A toy instance

Group of order 11, encryption modulus 221² (two slots), commitment modulus 46189, three messages in
two ciphertexts. -/

def toyBbParams : BbParams := ⟨1, 1, [], [1], ⟨[221], [3], [], 2⟩, ⟨[], [], []⟩⟩

def toyBbGs : List Int := [2, 3, 5]
def toyBbYs : List Int := [243, 19683]
def toyBbXs : List Int := [5, 9]

def toyReqDraws : ReqDraws where
  a i := 3 + i
  b i := 7 + i
  enc i := 5 + i
  openA i := 10 + i
  openB := 9
  openAlphas := 12
  openGammas := 4
  messages i := 20 + i
  rs i := 30 + i
  as i := 9 + i
  asOpen i := 15 + i
  bs i := 19 + i
  alphas i := 4 + i
  gammas i := 3 + i
  messagesOpen := 11
  rsOpen := 12
  bsOpen := 13
  alphasOpen1 := 17
  alphasOpen2 := 14
  gammasOpen1 := 8
  gammasOpen2 := 15
  dummyEnc i := 10 + 2 * i

def toyRespDraws : RespDraws := ⟨7, fun i => 23 + i, fun i => 5 + i, 3⟩

/-- The whole protocol on the toy instance. -/
def toyBbRun (H H' : Hashes) : Res (List (ZMod 11) × Int × Int) := do
  let ped ← Ped.create toyBbGs 7 46189 2
  let cs ← Cs.newPublic ⟨false, 3⟩ 221 2 3 toyBbYs
  let sk ← Cs.newPrivate ⟨true, 2⟩ 221 2 3 toyBbYs toyBbXs
  let v ← create toyBbParams toyEc cs ped
  let (pk, bsk) ← generateKeys v 4 6 (fun i => 2 + i) (fun i => 4 + i)
  let cm ← Ped.commitWithRand ped [1, 2, 10] 55
  let cr ← Ped.commitWithRand ped [3, 0, 9] 66
  let (req, π, st) ← generateRequest H v [1, 2, 10] [3, 0, 9] pk cm 55 cr 66 toyReqDraws
  verifyRequest H v pk req π cm cr
  let (resp, π') ← generateResponse H' v sk req pk cm cr toyRespDraws
  verifyResponse H' v pk resp π' req cm cr
  let σs ← extractResults v resp st
  return (σs, BN.ofBytes bsk.k, BN.ofBytes bsk.y)

theorem toyBbRun_ok : toyBbRun ⟨id, id, fun _ => 255 :: List.replicate 63 1, fun _ b => b⟩
    ⟨id, id, fun _ => 255 :: List.replicate 63 1, fun _ b => b⟩ = .ok ([9, 8, 1], 5, 7) := by
  decide +kernel

theorem create_eq_ok {params : BbParams} {E : EcGroup G} {cs : CsPublic} {ped : Pedersen}
    {v : BbSig G} (h : create params E cs ped = .ok v) :
    v.params = params ∧ v.group = E ∧ v.cs = cs ∧ v.ped = ped := by
  unfold create at h
  split at h
  · cases h
  split at h
  · cases h
  simp only [Res.bind_eq_ok] at h
  obtain ⟨b, _, h⟩ := h
  split at h
  · cases h
  split at h
  · cases h
  simp only [Res.bind_eq_ok, Res.pure_eq, Res.ok.injEq] at h
  obtain ⟨g, _, rfl⟩ := h
  exact ⟨rfl, rfl, rfl, rfl⟩

theorem toyBb_hyps {ped : Pedersen} (hped : Ped.create toyBbGs 7 46189 2 = .ok ped)
    {cs : CsPublic} {cfg cfg' : ExpCfg} (hcs : Cs.newPublic cfg 221 2 3 toyBbYs = .ok cs)
    {sk : CsPrivate} (hsk : Cs.newPrivate cfg' 221 2 3 toyBbYs toyBbXs = .ok sk)
    {v : BbSig (ZMod 11)} (hv : create toyBbParams toyEc cs ped = .ok v)
    {pk : BbPublicKey} {bsk : BbPrivateKey}
    (hk : generateKeys v 4 6 (fun i => 2 + i) (fun i => 4 + i) = .ok (pk, bsk)) {cm cr : Int}
    (hcm : Ped.commitWithRand ped [1, 2, 10] 55 = .ok cm)
    (hcr : Ped.commitWithRand ped [3, 0, 9] 66 = .ok cr) :
    BbSetup toyBbGs 7 46189 221 2 3 toyBbYs toyBbXs v sk ∧
    BbRun toyBbGs 221 toyBbYs v pk bsk [1, 2, 10] [3, 0, 9] cm 55 cr 66 := by
  obtain ⟨e1, e2, rfl, rfl⟩ := create_eq_ok hv
  refine ⟨⟨e2 ▸ toyEc_lawful, by decide, by decide,
    by decide, ⟨2, by decide, by decide, hped⟩, by decide, ?_, by decide, ⟨_, hcs⟩, ⟨_, hsk⟩,
    by rw [e1, e2]; exact hv, by rw [e1]; decide, by rw [e1]; decide⟩,
    ⟨⟨_, _, _, _, ?_, ?_, hk⟩, by decide, ?_, ?_, by decide, hcm, hcr⟩⟩
  · refine ⟨by decide, by decide, by decide, ?_⟩
    decide +kernel
  · decide
  · decide
  · rw [e2]
    show ∀ m ∈ [1, 2, 10], 0 ≤ m ∧ m < (11 : Int)
    decide
  · rw [e2]
    show ∀ m ∈ [3, 0, 9], 0 ≤ m ∧ m < (11 : Int)
    decide

/-- The hypotheses of C60-C62 hold for the toy instance, whose run returns the signatures. -/
theorem toyBb : ∃ (v : BbSig (ZMod 11)) (sk : CsPrivate) (pk : BbPublicKey) (bsk : BbPrivateKey)
    (cm cr : Int) (H : Hashes) (req : BbRequest) (π : BbReqProof) (st : List Bytes)
    (resp : List Bytes) (π' : BbRespProof),
    BbSetup toyBbGs 7 46189 221 2 3 toyBbYs toyBbXs v sk ∧
    BbRun toyBbGs 221 toyBbYs v pk bsk [1, 2, 10] [3, 0, 9] cm 55 cr 66 ∧
    generateRequest H v [1, 2, 10] [3, 0, 9] pk cm 55 cr 66 toyReqDraws = .ok (req, π, st) ∧
    verifyRequest H v pk req π cm cr = .ok () ∧
    generateResponse H v sk req pk cm cr toyRespDraws = .ok (resp, π') ∧
    verifyResponse H v pk resp π' req cm cr = .ok () ∧ extractResults v resp st = .ok [9, 8, 1] := by
  have h : toyBbRun ⟨id, id, fun _ => 255 :: List.replicate 63 1, fun _ b => b⟩
    ⟨id, id, fun _ => 255 :: List.replicate 63 1, fun _ b => b⟩ = .ok ([9, 8, 1], 5, 7) := by
    decide +kernel
  unfold toyBbRun at h
  simp only [Res.bind_eq_ok, Res.pure_eq, Res.ok.injEq, Prod.mk.injEq] at h
  obtain ⟨ped, hped, cs, hcs, sk, hsk, v, hv, ⟨pk, bsk⟩, hk, cm, hcm, cr, hcr, ⟨req, π, st⟩, hreq, _,
    hver, ⟨resp, π'⟩, hresp, _, hver', σs, hext, rfl, -⟩ := h
  obtain ⟨S, R⟩ := toyBb_hyps hped hcs hsk hv hk hcm hcr
  exact ⟨v, sk, pk, bsk, cm, cr, _, req, π, st, resp, π', S, R, hreq, hver, hresp, hver', hext⟩

/-- Request and verification on the toy instance with a dummy encryption exponent 8: masked with
challenge 1 it becomes 13, a factor of 221. -/
def toyBbRefused (H : Hashes) : Res Bool := do
  let ped ← Ped.create toyBbGs 7 46189 2
  let cs ← Cs.newPublic ⟨false, 3⟩ 221 2 3 toyBbYs
  let sk ← Cs.newPrivate ⟨true, 2⟩ 221 2 3 toyBbYs toyBbXs
  let v ← create toyBbParams toyEc cs ped
  let (pk, bsk) ← generateKeys v 4 6 (fun i => 2 + i) (fun i => 4 + i)
  let cm ← Ped.commitWithRand ped [1, 2, 10] 55
  let cr ← Ped.commitWithRand ped [3, 0, 9] 66
  let (req, π, st) ← generateRequest H v [1, 2, 10] [3, 0, 9] pk cm 55 cr 66
    { toyReqDraws with dummyEnc := fun _ => 8 }
  return decide (verifyRequest H v pk req π cm cr = .err .invalidArgument)

/-- The exception in C61 is reachable: with these draws (all usable) and a hash function whose
challenge is 1, the honest request is refused. -/
theorem C61_honest_request_refused : ∃ (v : BbSig (ZMod 11)) (sk : CsPrivate) (pk : BbPublicKey)
    (bsk : BbPrivateKey) (cm cr : Int) (H : Hashes) (d : ReqDraws) (req : BbRequest) (π : BbReqProof)
    (st : List Bytes), BbSetup toyBbGs 7 46189 221 2 3 toyBbYs toyBbXs v sk ∧
    BbRun toyBbGs 221 toyBbYs v pk bsk [1, 2, 10] [3, 0, 9] cm 55 cr 66 ∧
    generateRequest H v [1, 2, 10] [3, 0, 9] pk cm 55 cr 66 d = .ok (req, π, st) ∧
    verifyRequest H v pk req π cm cr = .err .invalidArgument := by
  have h : toyBbRefused ⟨id, id, fun _ => 255 :: List.replicate 63 1, fun _ b => b⟩ = .ok true := by
    decide +kernel
  unfold toyBbRefused at h
  simp only [Res.bind_eq_ok, Res.pure_eq, Res.ok.injEq] at h
  obtain ⟨ped, hped, cs, hcs, sk, hsk, v, hv, ⟨pk, bsk⟩, hk, cm, hcm, cr, hcr, ⟨req, π, st⟩, hreq,
    hver⟩ := h
  obtain ⟨S, R⟩ := toyBb_hyps hped hcs hsk hv hk hcm hcr
  exact ⟨v, sk, pk, bsk, cm, cr, _, _, req, π, st, S, R, hreq, by simpa using hver⟩

end PJC.Props
