import Verif.Props.BbView
set_option linter.unusedSectionVars false
/-
C128: the signer's public key is not checked, and a signer who puts large numbers in the place of
the keys reads messages and nonces off an honest request.
-/
namespace PJC.Bb

variable {G : Type} [AddCommGroup G] [DecidableEq G]

/-- A public key made as `GenerateKeys` makes it (bb_oblivious_signature.cc:196-212), with `k` and `y`
in the place of the keys that it would have drawn below the order of the group. -/
def publicKeyOf (v : BbSig G) (k y : Int) (drawK drawY : Nat → Int) : Res BbPublicKey := do
  let cts ← (List.range v.cs.len).mapM (encryptKeyAt v.cs k y drawK drawY)
  return ⟨cts.map Prod.fst, cts.map Prod.snd⟩

/-- The dishonest signer's reading of one decrypted value: the digits of `V` in the mixed basis
`1, k, y` are `a m + b q`, `a` and `a r`. -/
def readPair (q : Nat) (k y V : Int) : Int × Int :=
  let a := V % y / k
  ((V % y % k) * a ^ (q - 2) % q, V / y / a)

/-- The arithmetic of the attack. -/
theorem readPair_spec {q : Nat} (hq : q.Prime) {k y a b m r : Int} {T : Int} (hT : 0 < T)
    (hk : (q : Int) ^ 2 + q ^ 3 * T ≤ k) (hy : q * k ≤ y) (ha : 1 ≤ a) (haq : a < q)
    (hm : 0 ≤ m) (hmq : m < q) (hr : 0 ≤ r) (hb : 0 ≤ b) (hbq : b < q * q * T) :
    readPair q k y (m * a + b * q + (k * a + y * (r * a))) = (m, r) := by
  have hq2 : (2 : Int) ≤ q := by exact_mod_cast hq.two_le
  have hkpos : 0 < k := lt_of_lt_of_le (by positivity) hk
  have hypos : 0 < y := lt_of_lt_of_le (by positivity) hy
  have hx0 : 0 ≤ m * a + b * q := by positivity
  have hxk : m * a + b * q < k := by
    have e1 : m * a ≤ q * q := mul_le_mul hmq.le haq.le (by omega) (by omega)
    have e2 : b * q < q * q * T * q := mul_lt_mul_of_pos_right hbq (by omega)
    have e3 : (q : Int) ^ 2 + q ^ 3 * T = q * q + q * q * T * q := by ring
    omega
  have hlow : m * a + b * q + k * a < y := by
    have : k * (a + 1) ≤ k * q := mul_le_mul_of_nonneg_left (by omega) hkpos.le
    have e : k * (a + 1) = k * a + k := by ring
    have e' : k * (q : Int) = q * k := by ring
    omega
  have hlow0 : 0 ≤ m * a + b * q + k * a := by
    have : 0 ≤ k * a := by positivity
    omega
  have eV : m * a + b * q + (k * a + y * (r * a)) = (m * a + b * q + k * a) + y * (r * a) := by ring
  have d1 : (m * a + b * q + (k * a + y * (r * a))) % y = m * a + b * q + k * a := by
    rw [eV, Int.add_mul_emod_self_left, Int.emod_eq_of_lt hlow0 hlow]
  have d2 : (m * a + b * q + (k * a + y * (r * a))) / y = r * a := by
    rw [eV, Int.add_mul_ediv_left _ _ hypos.ne', Int.ediv_eq_zero_of_lt hlow0 hlow, zero_add]
  have d3 : (m * a + b * q + k * a) / k = a := by
    rw [Int.add_mul_ediv_left _ _ hkpos.ne', Int.ediv_eq_zero_of_lt hx0 hxk, zero_add]
  have d4 : (m * a + b * q + k * a) % k = m * a + b * q := by
    rw [Int.add_mul_emod_self_left, Int.emod_eq_of_lt hx0 hxk]
  unfold readPair
  simp only [d1, d2, d3, d4]
  refine Prod.ext ?_ ?_
  · show (m * a + b * q) * a ^ (q - 2) % q = m
    have hcop : IsCoprime a (q : Int) := by
      rw [Int.isCoprime_iff_gcd_eq_one, Int.gcd_comm]
      apply (Nat.Prime.coprime_iff_not_dvd hq).2
      intro hdv
      have := Nat.le_of_dvd (by omega) hdv
      omega
    have hf := Int.ModEq.pow_card_sub_one_eq_one hq hcop
    have e1 : a ^ (q - 1) = a * a ^ (q - 2) := by
      rw [← pow_succ']
      congr 1
      have := hq.two_le
      omega
    rw [e1] at hf
    have e2 : (m * a + b * q) * a ^ (q - 2) = m * (a * a ^ (q - 2)) + q * (b * a ^ (q - 2)) := by ring
    rw [e2, Int.add_mul_emod_self_left]
    have := (hf.mul_left m)
    rw [mul_one] at this
    rw [this.eq]
    exact Int.emod_eq_of_lt hm hmq
  · show r * a / a = r
    exact Int.mul_ediv_cancel _ (by omega)

/-- The encrypted value is not reduced. -/
theorem mixed_range {q k y a b m r T B : Int} (hq : 0 ≤ q) (hk : q ^ 2 + q ^ 3 * T ≤ k)
    (hy : q * k ≤ y) (hB : q ^ 2 * y ≤ B) (hk0 : 0 ≤ k) (hy0 : 0 ≤ y) (ha : 1 ≤ a) (haq : a < q)
    (hm : 0 ≤ m) (hmq : m < q) (hr : 0 ≤ r) (hrq : r < q) (hb : 0 ≤ b) (hbq : b < q * q * T) :
    0 ≤ m * a + b * q + (k * a + y * (r * a)) ∧ m * a + b * q + (k * a + y * (r * a)) < B := by
  have e1 : m * a ≤ q * q := mul_le_mul hmq.le haq.le (by omega) (by omega)
  have e2 : b * q < q * q * T * q := mul_lt_mul_of_pos_right hbq (by omega)
  have e3 : q ^ 2 + q ^ 3 * T = q * q + q * q * T * q := by ring
  have e4 : k * (a + 1) ≤ k * q := mul_le_mul_of_nonneg_left (by omega) hk0
  have e5 : k * (a + 1) = k * a + k := by ring
  have e6 : k * q = q * k := by ring
  have e7 : r * a ≤ (q - 1) * q := mul_le_mul (by omega) haq.le (by omega) (by omega)
  have e8 : y * (r * a + 1) ≤ y * q ^ 2 := by
    refine mul_le_mul_of_nonneg_left ?_ hy0
    have : (q - 1) * q = q ^ 2 - q := by ring
    omega
  have e9 : y * (r * a + 1) = y * (r * a) + y := by ring
  have e10 : y * q ^ 2 = q ^ 2 * y := by ring
  constructor
  · positivity
  · omega

end PJC.Bb

namespace PJC.Props
open PJC.Bb PJC.DJ PJC.Stat

variable {G : Type} [AddCommGroup G] [DecidableEq G]
variable {gs : List Int} {h n : Int} {N s : Nat} {g : Int} {ys xs : List Int} {v : BbSig G}
  {sk : CsPrivate}

/-- What an honest requester starts from: messages and nonces in range, and the openings of its
commitments. -/
structure BbClient (gs : List Int) (v : BbSig G) (ms rs : List Int) (cm om cr orr : Int) : Prop where
  sizes : rs.length = ms.length ∧ ms.length ≤ gs.length
  messages : ∀ m ∈ ms, 0 ≤ m ∧ m < v.group.order
  nonces : ∀ r ∈ rs, 0 ≤ r ∧ r < v.group.order
  openings : 0 ≤ om ∧ 0 ≤ orr
  commitMessages : Ped.commitWithRand v.ped ms om = .ok cm
  commitNonces : Ped.commitWithRand v.ped rs orr = .ok cr

/-- **C128**.  Let `k` and `y` be large: `q² + q³ 2^(challenge + security) ≤ k`, `q k ≤ y` and
`q² y ≤ N^s`.  The public key with `k` and `y` in the place of the keys is accepted by
`GenerateRequestAndProof` like any other, for all messages, nonces and draws.  The holder of the
decryption key then reads every message and every nonce off the decrypted request. -/
theorem C128_key_reveals (S : BbSetup gs h n N s g ys xs v sk) (k y : Int)
    (hk : (v.group.order : Int) ^ 2 + v.group.order ^ 3 * 2 ^ (v.params.chal + v.params.sec).toNat ≤ k)
    (hy : v.group.order * k ≤ y) (hN : (v.group.order : Int) ^ 2 * y ≤ (N : Int) ^ s)
    (drawK drawY : Nat → Int) (hdk : ∀ i < ys.length, 0 ≤ drawK i ∧ Int.gcd (drawK i) N = 1)
    (hdy : ∀ i < ys.length, 0 ≤ drawY i ∧ Int.gcd (drawY i) N = 1) :
    ∃ pk, publicKeyOf v k y drawK drawY = .ok pk ∧
      ∀ (ms rs : List Int) (cm om cr orr : Int), BbClient gs v ms rs cm om cr orr →
      ∀ (H : Hashes) (d : ReqDraws), (∀ r ∈ requestRandomness v N ys.length ms.length d, Usable N r) →
      ∃ req π st vs, generateRequest H v ms rs pk cm om cr orr d = .ok (req, π, st) ∧
        decryptRequest v sk req = .ok vs ∧
        vs.map (readPair v.group.order k y) = ms.zip rs := by
  have M := S.made
  have Gd := M.good
  have hn := M.n0
  have U := M.units
  have hq := M.order
  have hprime : v.group.order.Prime := M.lawful.prime
  have hT : (0 : Int) < 2 ^ (v.params.chal + v.params.sec).toNat := by positivity
  have hk0 : 0 ≤ k := le_trans (by positivity) hk
  have hy0 : 0 ≤ y := le_trans (by positivity) hy
  obtain ⟨cfg, P⟩ := M.pub
  refine ⟨⟨(keyCts ((N : Int) ^ (s + 1)) N g ys k drawK).map ctB,
    (keyCts ((N : Int) ^ (s + 1)) N g ys y drawY).map ctB⟩, ?_, ?_⟩
  · have hA : (List.range v.cs.len).mapM (encryptKeyAt v.cs k y drawK drawY) =
        .ok ((List.range ys.length).map fun i =>
          (ctB (encP ((N : Int) ^ (s + 1)) N g ys (slot ys.length i k) (drawK i)),
           ctB (encP ((N : Int) ^ (s + 1)) N g ys (slot ys.length i y) (drawY i)))) := by
      rw [P.hlen]
      apply mapM_eq_map
      intro i hi
      have hi : i < ys.length := by simpa using hi
      unfold encryptKeyAt
      rw [P.hlen, encrypt_ok P (slot_length _ _ _).le (slot_nonneg hk0) (hdk i hi).1 (hdk i hi).2,
        Res.ok_bind, (Wf.enc U.pos U.hN U.hg U.hys _ _).toProto, Res.ok_bind,
        encrypt_ok P (slot_length _ _ _).le (slot_nonneg hy0) (hdy i hi).1 (hdy i hi).2,
        Res.ok_bind, (Wf.enc U.pos U.hN U.hg U.hys _ _).toProto]
      rfl
    unfold publicKeyOf
    rw [hA]
    simp only [Res.ok_bind, Res.pure_eq, List.map_map, keyCts]
    rfl
  · intro ms rs cm om cr orr C H d hu
    have K := M.keyOk (keyCts_wf U k drawK) (keyCts_wf U y drawY) (keyCts_length ..) (keyCts_length ..)
    have vm : Ped.Valid gs ms om := ⟨C.sizes.2, fun m hm => (C.messages m hm).1, C.openings.1⟩
    have vr : Ped.Valid gs rs orr :=
      ⟨by rw [C.sizes.1]; exact C.sizes.2, fun m hm => (C.nonces m hm).1, C.openings.2⟩
    have ecm := C.commitMessages
    have ecr := C.commitNonces
    rw [Gd.commit vm] at ecm
    rw [Gd.commit vr] at ecr
    cases ecm
    cases ecr
    obtain ⟨c, -, -, -, hgen⟩ := M.generateRequest_eq H K d C.sizes.1 C.sizes.2
      (fun m hm => (C.messages m hm).1) (fun m hm => (C.nonces m hm).1) C.openings.1 C.openings.2
      (show 0 ≤ Ped.commitment gs h n ms om from Ped.commitment_nonneg hn ms om)
      (show 0 ≤ Ped.commitment gs h n rs orr from Ped.commitment_nonneg hn rs orr)
    have W := M.secretP_ok d C.sizes.1 (fun m hm => (C.messages m hm).1)
      (fun m hm => (C.nonces m hm).1) C.openings.1 C.openings.2 ys.length
    have hrand : requestRandomness v N ys.length ms.length d =
        (secretP v n N ys.length ms rs om orr d).enc ++ (dummyP v n N ys.length ms.length d).enc := rfl
    rw [hrand] at hu
    rw [if_pos ⟨fun r hr => hu r (List.mem_append_left _ hr), fun r hr => hu r (List.mem_append_right _ hr)⟩]
      at hgen
    set w := secretP v n N ys.length ms rs om orr d with hw
    have henc : ∀ r ∈ w.enc, RandOk N r := fun r hr => hu r (List.mem_append_left _ hr)
    -- the encrypted values
    have hβ : ∀ i < ms.length, betaP v.group.order k y w i =
        ms.getD i 0 * aOf v (d.a i) + (d.b i : Int) % ((v.group.order : Int) * v.group.order * 2 ^ tBits v) *
          v.group.order + (k * aOf v (d.a i) + y * (rs.getD i 0 * aOf v (d.a i))) := by
      intro i hi
      rw [hw]
      unfold betaP maskedMessages secretP
      dsimp only
      rw [zipWith_getD (by simp [hi]) (by rw [drawP_length]; exact hi),
        zipWith_getD hi (by simp [hi]), zipWith_getD (by rw [C.sizes.1]; exact hi) (by simp [hi]),
        getD_map_range _ _ hi]
      unfold drawP
      rw [getD_map_range _ _ hi]
    have hread : ∀ i < ms.length, readPair v.group.order k y (betaP v.group.order k y w i) =
        (ms.getD i 0, rs.getD i 0) ∧ 0 ≤ betaP v.group.order k y w i ∧
        betaP v.group.order k y w i < (N : Int) ^ s := by
      intro i hi
      have hmi := C.messages _ (getD_mem 0 hi)
      have hri := C.nonces _ (getD_mem 0 (show i < rs.length by rw [C.sizes.1]; exact hi))
      obtain ⟨-, ha1, haq⟩ := M.aOf_ok (d.a i)
      have hBpos : (0 : Int) < (v.group.order : Int) * v.group.order * 2 ^ tBits v := by positivity
      have hb0 := Int.emod_nonneg (d.b i : Int) hBpos.ne'
      have hb1 := Int.emod_lt_of_pos (d.b i : Int) hBpos
      rw [hβ i hi]
      have range := mixed_range (by omega) hk hy hN hk0 hy0 ha1 haq hmi.1 hmi.2 hri.1 hri.2 hb0 hb1
      exact ⟨readPair_spec hprime hT hk hy ha1 haq hmi.1 hmi.2 hri.1 hb0 hb1, range.1, range.2⟩
    -- the ciphertexts
    have hL := M.len0
    set p := prepP v gs h n N s g ys (keyCts ((N : Int) ^ (s + 1)) N g ys k drawK)
      (keyCts ((N : Int) ^ (s + 1)) N g ys y drawY) w with hp
    have hlen : p.cts.length = numCts ms.length ys.length := by simp [p, prepP, ctsP, W.messages.1]
    have hnum : (reqP p).num = ms.length := W.messages.1
    have henc' : ∀ i < p.cts.length, Cs.CtOk N s xs (fun j => betaP v.group.order k y w (i * ys.length + j))
        (p.cts.getD i default) := by
      intro i hi
      rw [hlen] at hi
      have e : p.cts.getD i default = homCtP ((N : Int) ^ (s + 1)) N g ys
          (maskedMessages v.group.order w) w.as w.gammas w.enc
          (keyCts ((N : Int) ^ (s + 1)) N g ys k drawK)
          (keyCts ((N : Int) ^ (s + 1)) N g ys y drawY) i := by
        show (ctsP _ _ _ _ _ _ _ _).getD i default = _
        unfold ctsP
        rw [getD_map_range _ _ (by rw [W.messages.1]; exact hi)]
      rw [e]
      exact M.request_enc S.keyPair.keyRel hk0 hy0 hdk hdy W henc hi
    have hwf : ∀ c ∈ p.cts, Wf ((N : Int) ^ (s + 1)) ys.length c :=
      ctsP_wf U (keyCts_wf U k drawK) (keyCts_wf U y drawY) (keyCts_length ..) (keyCts_length ..) w
    have hkm : (reqP p).num ≤ p.cts.length * ys.length := by rw [hnum, hlen]; exact numCts_mul hL
    obtain ⟨cfg', P'⟩ := S.priv.sk
    have o1 : (reqP p).cts.mapM (Cs.parseCiphertextProto v.cs) = .ok p.cts := Wf.parses P hwf
    have o2 : p.cts.mapM (Cs.decrypt sk) = .ok ((List.range p.cts.length).map fun i =>
        (List.range ys.length).map fun j => betaP v.group.order k y w (i * ys.length + j) % (N : Int) ^ s) := by
      conv_lhs => rw [← map_getD_range (default : CsCt) p.cts]
      rw [List.mapM_map]
      apply mapM_eq_map
      intro i hi
      have hi : i < p.cts.length := by simpa using hi
      simp only [Function.comp]
      rw [Cs.decrypt_spec P' S.priv.rel.nonneg (henc' i hi), S.priv.rel.len]
    refine ⟨_, _, _, (List.range ms.length).map (betaP v.group.order k y w), hgen, ?_, ?_⟩
    · unfold decryptRequest
      rw [o1, Res.ok_bind, o2, Res.ok_bind, Res.pure_eq,
        flatten_batches (fun i => betaP v.group.order k y w i % (N : Int) ^ s), take_map_range _ hkm, hnum]
      congr 1
      apply List.map_congr_left
      intro i hi
      obtain ⟨-, h0, h1⟩ := hread i (by simpa using hi)
      exact Int.emod_eq_of_lt h0 h1
    · apply List.ext_getElem
      · simp [C.sizes.1]
      · intro i h1 h2
        have hi : i < ms.length := by simpa using h1
        have hi' : i < rs.length := by rw [C.sizes.1]; exact hi
        simp only [List.getElem_map, List.getElem_range, List.getElem_zip]
        rw [(hread i hi).1, List.getD_eq_getElem _ _ hi, List.getD_eq_getElem _ _ hi']

/-- The sizes are common ones: a group of up to 256 bits, challenge and security parameter of
together up to 500 bits, and a plaintext space of 2040 bits or more (a modulus of 2048 bits). -/
theorem C128_common_sizes (q N s t : Nat) (hq : q < 2 ^ 256) (ht : t ≤ 500)
    (hN : 2 ^ 2040 ≤ N ^ s) : ∃ k y : Int, (q : Int) ^ 2 + q ^ 3 * 2 ^ t ≤ k ∧ q * k ≤ y ∧
      (q : Int) ^ 2 * y ≤ (N : Int) ^ s := by
  have hq' : (q : Int) ≤ 2 ^ 256 := by exact_mod_cast hq.le
  have hq0 : (0 : Int) ≤ q := by omega
  have key : ∀ (a : Nat), (q : Int) ^ a ≤ 2 ^ (256 * a) := by
    intro a
    rw [pow_mul]
    exact pow_le_pow_left₀ hq0 hq' a
  have hN' : (2 : Int) ^ 2040 ≤ (N : Int) ^ s := by exact_mod_cast hN
  refine ⟨2 ^ 1269, 2 ^ 1525, ?_, ?_, ?_⟩
  · have e1 : (q : Int) ^ 2 ≤ 2 ^ 1268 := (key 2).trans (pow_le_pow_right₀ (by norm_num) (by norm_num))
    have e2 : (q : Int) ^ 3 * 2 ^ t ≤ 2 ^ 1268 := by
      calc (q : Int) ^ 3 * 2 ^ t ≤ 2 ^ (256 * 3) * 2 ^ 500 :=
            mul_le_mul (key 3) (pow_le_pow_right₀ (by norm_num) ht) (by positivity) (by positivity)
        _ = 2 ^ 1268 := by rw [← pow_add]
    have e3 : (2 : Int) ^ 1269 = 2 ^ 1268 + 2 ^ 1268 := by rw [← two_mul, ← pow_succ']
    rw [e3]
    exact add_le_add e1 e2
  · calc (q : Int) * 2 ^ 1269 ≤ 2 ^ 256 * 2 ^ 1269 := mul_le_mul_of_nonneg_right hq' (by positivity)
      _ = 2 ^ 1525 := by rw [← pow_add]
  · refine le_trans ?_ hN'
    calc (q : Int) ^ 2 * 2 ^ 1525 ≤ 2 ^ (256 * 2) * 2 ^ 1525 :=
          mul_le_mul_of_nonneg_right (key 2) (by positivity)
      _ = 2 ^ 2037 := by rw [← pow_add]
      _ ≤ 2 ^ 2040 := pow_le_pow_right₀ (by norm_num) (by norm_num)

/-! ### A whole run with such a key

Group of order 11, encryption modulus 221³ (two slots).  The values in the place of the keys are
5446 and 59908.  The response that `GenerateResponseAndProof` makes with this key is refused
(bb_oblivious_signature.cc:1354-1369, the bound on the masked values), but only after the signer has
read the request. -/

def toyKeyParams : BbParams := ⟨1, 1, [], [1], ⟨[221], [3], [], 3⟩, ⟨[], [], []⟩⟩

def toyKeyRun (H : Hashes) : Res (List (Int × Int) × Bool) := do
  let ped ← Ped.create toyBbGs 7 46189 2
  let cs ← Cs.newPublic ⟨false, 3⟩ 221 3 3 toyBbYs
  let sk ← Cs.newPrivate ⟨true, 2⟩ 221 3 3 toyBbYs toyBbXs
  let v ← create toyKeyParams toyEc cs ped
  let pk ← publicKeyOf v 5446 59908 (fun i => 2 + i) (fun i => 4 + i)
  let cm ← Ped.commitWithRand ped [1, 2, 10] 55
  let cr ← Ped.commitWithRand ped [3, 0, 9] 66
  let (req, π, _) ← generateRequest H v [1, 2, 10] [3, 0, 9] pk cm 55 cr 66 toyReqDraws
  verifyRequest H v pk req π cm cr
  let vs ← decryptRequest v sk req
  let (resp, π') ← generateResponse H v sk req pk cm cr toyRespDraws
  return (vs.map (readPair 11 5446 59908),
    decide (verifyResponse H v pk resp π' req cm cr = .err .invalidArgument))

theorem toyKeyRun_ok : toyKeyRun ⟨id, id, fun _ => 255 :: List.replicate 63 1, fun _ b => b⟩ =
    .ok ([(1, 3), (2, 0), (10, 9)], true) := by
  decide +kernel

/-- The hypotheses of `C128_key_reveals` hold for these parameters, values, messages and draws. -/
theorem C128_reached : ∃ (v : BbSig (ZMod 11)) (sk : CsPrivate) (cm cr : Int),
    BbSetup toyBbGs 7 46189 221 3 3 toyBbYs toyBbXs v sk ∧
    (v.group.order : Int) ^ 2 + v.group.order ^ 3 * 2 ^ (v.params.chal + v.params.sec).toNat ≤ 5446 ∧
    (v.group.order : Int) * 5446 ≤ 59908 ∧ (v.group.order : Int) ^ 2 * 59908 ≤ ((221 : Nat) : Int) ^ 3 ∧
    BbClient toyBbGs v [1, 2, 10] [3, 0, 9] cm 55 cr 66 ∧
    (∀ i < toyBbYs.length, 0 ≤ (2 + i : Int) ∧ Int.gcd (2 + i) (221 : Nat) = 1) ∧
    (∀ i < toyBbYs.length, 0 ≤ (4 + i : Int) ∧ Int.gcd (4 + i) (221 : Nat) = 1) ∧
    ∀ r ∈ requestRandomness v 221 2 3 toyReqDraws, Usable 221 r := by
  have hr := toyKeyRun_ok
  unfold toyKeyRun at hr
  simp only [Res.bind_eq_ok] at hr
  obtain ⟨ped, hped, cs, hcs, sk, hsk, v, hv, pk, hpk, cm, hcm, cr, hcr, -⟩ := hr
  obtain ⟨e1, e2, rfl, rfl⟩ := create_eq_ok hv
  refine ⟨v, sk, cm, cr, ?_, ?_, ?_, ?_, ⟨by decide, ?_, ?_, by decide, hcm, hcr⟩, by decide, by decide, ?_⟩
  · refine ⟨e2 ▸ toyEc_lawful, by decide, by decide,
      by decide, ⟨2, by decide, by decide, hped⟩, by decide, ?_, by decide, ⟨_, hcs⟩, ⟨_, hsk⟩,
      by rw [e1, e2]; exact hv, by rw [e1]; decide, by rw [e1]; decide⟩
    refine ⟨by decide, by decide, by decide, ?_⟩
    decide +kernel
  · rw [e1, e2]; decide
  · rw [e2]; decide
  · rw [e2]; decide
  · rw [e2]
    show ∀ m ∈ [1, 2, 10], 0 ≤ m ∧ m < (11 : Int)
    decide
  · rw [e2]
    show ∀ m ∈ [3, 0, 9], 0 ≤ m ∧ m < (11 : Int)
    decide
  · unfold requestRandomness Usable
    rw [e1]
    decide +kernel

end PJC.Props
