import Verif.Props.BbRespZk
import Verif.Props.BbView
set_option linter.unusedSectionVars false
/-
Property C133: all that a signer answers to an honest request is distributed like something computed
from the signatures that the requester is to get, and public values.

As in C101 and C127 the challenge is fixed and the hash function is any that leads to it.
-/
namespace PJC.Bb
open PJC.Stat

variable {G : Type} [AddCommGroup G] [DecidableEq G]

/-- The draws of an answer to `k` messages with `L` slots: the opening of the commitment, and the masks
of the proof. -/
abbrev AnswerDraws (k L : Nat) := (Fin 1 → Nat) × (RespMask k L → Nat)

/-- Every combination of values below the bounds of the generator
(bb_oblivious_signature.cc:1146-1184). -/
def answerDraws (v : BbSig G) (n : Int) (N k L : Nat) : Finset (AnswerDraws k L) :=
  Box (fun _ : Fin 1 => n.toNat) ×ˢ Box (respBounds v N k L)

/-- The draws as the model of the generator takes them. -/
def answerOf {k L : Nat} (t : AnswerDraws k L) : RespDraws :=
  remaskResp ⟨t.1 0, fun _ => 0, fun _ => 0, 0⟩ t.2

/-- Specification: the signatures, divided by the blinding factors that the requester keeps. -/
def blinded (v : BbSig G) (st : List Bytes) (σs : List G) : List G :=
  List.zipWith (fun a σ => ((BN.ofBytes a : ZMod v.group.order)⁻¹).val • σ) st σs

/-- Specification: a simulated answer, made of the signatures, the state of the requester and public
values: the blinded signatures, a random power of `h`, random responses. -/
def simAnswer (v : BbSig G) (h n : Int) (st : List Bytes) (σs : List G) (c : Nat) {k L : Nat}
    (t : AnswerDraws k L) : Res (List Bytes × BbRespProof) := do
  let resp ← ecPointVectorToProto v.group (blinded v st σs)
  return (resp, simResponse (simCom h n (t.1 0)) c t.2)

end PJC.Bb

namespace PJC.Props
open PJC.Bb PJC.DJ PJC.Stat

variable {G : Type} [AddCommGroup G] [DecidableEq G]
variable {gs : List Int} {h n : Int} {N s : Nat} {g : Int} {ys xs : List Int} {v : BbSig G}
  {sk : CsPrivate}

/-- The points of an answer to an honest request. -/
theorem answer_points (S : BbSetup gs h n N s g ys xs v sk) {pk : BbPublicKey} {bsk : BbPrivateKey}
    {ms rs : List Int} {cm om cr orr : Int} (R : BbRun gs N ys v pk bsk ms rs cm om cr orr)
    {H : Hashes} {d : ReqDraws} {req : BbRequest} {π : BbReqProof} {st : List Bytes}
    (hreq : generateRequest H v ms rs pk cm om cr orr d = .ok (req, π, st)) {σs : List G}
    (hlen : σs.length = ms.length)
    (hσ : ∀ i < ms.length, IsBbSig v (BN.ofBytes bsk.k) (BN.ofBytes bsk.y) (ms.getD i 0)
      (rs.getD i 0) (σs.getD i 0)) :
    ∃ βs, Opens v sk req βs ∧ 0 ≤ cm ∧ 0 ≤ cr ∧ req.num = ms.length ∧
      βs.map (sigP v) = blinded v st σs := by
  have M := S.made
  have hq := M.order
  have hm : ∀ i < ms.length, ¬ ms.getD i 0 + BN.ofBytes bsk.k + BN.ofBytes bsk.y * rs.getD i 0 ≡ 0
      [ZMOD v.group.order] := by
    intro i hi h0
    obtain ⟨j, hj, -⟩ := hσ i hi
    have h1 := (h0.mul_left j).symm.trans hj
    rw [mul_zero] at h1
    have h2 := h1.dvd
    have : (v.group.order : Int) ∣ 1 := by simpa using h2
    have := Int.le_of_dvd (by norm_num) this
    omega
  obtain ⟨req', π₁, st', w, cts, k, y, hk, hy, hw, hst, hnum, henc, hgen, -, hcm, hcr⟩ :=
    bb_run S R H d
  have hreq' := hreq
  rw [hgen] at hreq
  split at hreq
  swap
  · cases hreq
  rename_i hu
  simp only [Res.ok.injEq, Prod.mk.injEq] at hreq
  obtain ⟨rfl, rfl, rfl⟩ := hreq
  set β := betaP v.group.order k y w with hβ
  have e : ∀ i < ms.length, β i ≡ aOf v (d.a i) *
      (ms.getD i 0 + BN.ofBytes bsk.k + BN.ofBytes bsk.y * rs.getD i 0) [ZMOD v.group.order] := by
    intro i hi
    have e := M.beta_secret (om := om) (orr := orr) R.sizes.1 d ys.length k y hi
    rw [← hw, ← hβ, hk, hy] at e
    exact e
  have hunit : ∀ i < req'.num, ¬ (v.group.order : Int) ∣ β i := by
    intro i hi hdv
    rw [hnum] at hi
    have h1 := Int.modEq_zero_iff_dvd.1 ((e i hi).symm.trans (Int.modEq_zero_iff_dvd.2 hdv))
    rcases (Nat.prime_iff_prime_int.1 M.lawful.prime).dvd_or_dvd h1 with h2 | h2
    · exact M.aOf_ndvd _ h2
    · exact hm i hi (Int.modEq_zero_iff_dvd.2 h2)
  have has : w.as = (List.range ms.length).map (fun i => aOf v (d.a i)) := by rw [hw]; rfl
  refine ⟨_, M.opens S.priv (henc hu) hunit, hcm, hcr, hnum, ?_⟩
  have hfact : Fact v.group.order.Prime := ⟨M.lawful.prime⟩
  apply List.ext_getElem
  · simp [blinded, hst, has, hnum, hlen, vecB]
  intro i h1 h2
  have hi : i < ms.length := by simpa [hnum] using h1
  obtain ⟨j, hj, hs⟩ := hσ i hi
  have hσi : σs[i]'(by omega) = j • v.base := by
    rw [← hs, List.getD_eq_getElem _ _ (by omega)]
  obtain ⟨e1, _, _⟩ := BN.inv_spec (by omega : (0 : Int) < v.group.order)
    ((M.gcd_iff (β i)).2 (hunit i (by omega)))
  have ha0 : (0 : Int) ≤ aOf v (d.a i) := by have := (M.aOf_ok (d.a i)).2.1; omega
  simp only [blinded, hst, has, vecB, List.getElem_map, List.getElem_range, List.getElem_zipWith,
    ofBytes_encB ha0, hσi]
  unfold sigP
  rw [← natCast_zsmul, smul_smul]
  apply M.lawful.zsmul_congr
  have f1 := (ZMod.intCast_eq_intCast_iff _ _ _).2 (e i hi)
  have f2 := (ZMod.intCast_eq_intCast_iff _ _ _).2 e1
  have f3 := (ZMod.intCast_eq_intCast_iff _ _ _).2 hj
  rw [← ZMod.intCast_eq_intCast_iff]
  push_cast at f1 f2 f3 ⊢
  rw [ZMod.natCast_zmod_val]
  set A : ZMod v.group.order := ((aOf v (d.a i) : Int) : ZMod v.group.order)
  set I : ZMod v.group.order := ((BN.inv (β i) v.group.order : Int) : ZMod v.group.order)
  set X : ZMod v.group.order := (ms.getD i 0 : ZMod v.group.order) + BN.ofBytes bsk.k +
    BN.ofBytes bsk.y * rs.getD i 0
  rw [f1] at f2
  have hA : A ≠ 0 := by rintro h0; rw [h0] at f2; simp at f2
  field_simp
  have hX : X ≠ 0 := by rintro h0; rw [h0] at f3; simp at f3
  apply mul_right_cancel₀ hX
  rw [f3, ← f2]
  ring

/-- **C133**.  With all draws of the signer uniform over their ranges, and for each the hash function
any that leads to the challenge `c`, everything the signer answers to an honest request is distributed
like a simulated answer, which depends on nothing secret but the signatures `σs` on the messages and
nonces. -/
theorem C133_answer (S : BbSetup gs h n N s g ys xs v sk) (hx : ∀ x ∈ xs, x < N) (κ : Nat)
    (hκ : n ≤ κ * N) (pk : BbPublicKey) (bsk : BbPrivateKey)
    (ms rs : List Int) (cm om cr orr : Int) (R : BbRun gs N ys v pk bsk ms rs cm om cr orr)
    (hgs : ∀ c ∈ gs, ∃ k : Nat, c ≡ h ^ k [ZMOD n]) (Mh : Nat) (hMh0 : 0 < Mh)
    (hMh : h ^ Mh ≡ 1 [ZMOD n]) (H₀ : Hashes) (d : ReqDraws) (req : BbRequest) (π : BbReqProof)
    (st : List Bytes) (hreq : generateRequest H₀ v ms rs pk cm om cr orr d = .ok (req, π, st))
    (σs : List G) (hlen : σs.length = ms.length)
    (hσ : ∀ i < ms.length, IsBbSig v (BN.ofBytes bsk.k) (BN.ofBytes bsk.y) (ms.getD i 0)
      (rs.getD i 0) (σs.getD i 0))
    (c : Nat) (H : AnswerDraws ms.length ys.length → Hashes)
    (hc : ∀ t ∈ answerDraws v n N ms.length ys.length, ∀ resp π',
      generateResponse (H t) v sk req pk cm cr (answerOf t) = .ok (resp, π') →
      BN.ofBytes π'.challenge = c) :
    Close (answerDraws v n N ms.length ys.length)
      (fun t => generateResponse (H t) v sk req pk cm cr (answerOf t))
      (fun t => simAnswer v h n st σs c t)
      (((2 * ms.length + ys.length + κ : Nat) : ℚ) / 2 ^ v.params.sec.toNat +
        ms.length / v.group.order + (n.toNat % Mh : Nat) / n.toNat) := by
  have M := S.made
  have hq := M.order
  have hn := M.n0
  have hn' : 0 < n.toNat := by omega
  obtain ⟨βs, O, hcm, hcr, hnum, hpts⟩ := answer_points S R hreq hlen hσ
  obtain ⟨num, cts⟩ := req
  dsimp only at hnum
  subst hnum
  obtain ⟨resp, hresp, form⟩ := M.response_closed S.priv O pk hcm hcr
  rw [hpts] at hresp
  -- the proof, for each opening
  have step1 : Close (answerDraws v n N ms.length ys.length)
      (fun t => generateResponse (H t) v sk ⟨ms.length, cts⟩ pk cm cr (answerOf t))
      (fun t => .ok (resp, simResponse (encB (Ped.commitment gs h n βs (t.1 0 : Nat))) c t.2))
      (((2 * ms.length + ys.length + κ : Nat) : ℚ) / 2 ^ v.params.sec.toNat +
        ms.length / v.group.order) := by
    refine Close.snd fun o ho => ?_
    have ho := mem_box.1 ho 0
    have hd : (1 : Int) % dBetaB v = 1 := by
      apply Int.emod_eq_of_lt (by norm_num)
      unfold dBetaB
      have h1 : (1 : Int) ≤ 2 ^ (2 * tBits v) := one_le_pow₀ (by norm_num)
      calc (1 : Int) < 1 * 2 * 2 * 2 := by norm_num
        _ ≤ 2 ^ (2 * tBits v) * (v.group.order : Int) * v.group.order * v.group.order := by gcongr
    obtain ⟨c₀, -, -, h₀⟩ := (form ⟨o 0, fun _ => 1, fun _ => 0, 0⟩ (Ped.fixedHash [])).2 (by
      intro i _ hdv
      rw [Nat.cast_one, hd] at hdv
      have := Int.le_of_dvd (by norm_num) hdv
      omega)
    have key := C101_response_partial S hx κ hκ pk cm cr hcm hcr ⟨ms.length, cts⟩ βs O
      (Ped.fixedHash []) _ _ _ h₀ c (fun a => H (o, a)) (fun a ha resp' π' hg =>
        hc (o, a) (Finset.mem_product.2 ⟨mem_box.2 (by intro i; rw [Subsingleton.elim i 0]; exact ho), ha⟩)
          resp' π' hg)
    have hon : ((o 0 : Nat) : Int) % n = (o 0 : Nat) := Int.emod_eq_of_lt (by omega) (by omega)
    have hq0 : 0 < v.group.order := by omega
    have key := key.close (by positivity)
    refine (key.mono (le_of_eq ?_)).congr (fun a _ => rfl) (fun a _ => ?_)
    · have h2 : (v.group.order : ℚ) ≠ 0 := by positivity
      push_cast
      field_simp
    · dsimp only
      rw [hon]
  -- the commitment
  obtain ⟨X, hX⟩ := commitment_pow hgs βs
  have step2 : Close (answerDraws v n N ms.length ys.length)
      (fun t => (.ok (resp, simResponse (encB (Ped.commitment gs h n βs (t.1 0 : Nat))) c t.2) :
        Res (List Bytes × BbRespProof)))
      (fun t => .ok (resp, simResponse (simCom h n (t.1 0)) c t.2))
      ((n.toNat % Mh : Nat) / n.toNat) := by
    refine Close.fst fun a _ => ?_
    have key := close_shift_mod (ι := Fin 1) hMh0 hn' (fun _ _ => X) (fun _ _ _ _ _ => rfl)
      (fun o : Fin 1 → Nat => (.ok (resp, simResponse (simCom h n (o 0)) c a) :
        Res (List Bytes × BbRespProof)))
      (fun x y hxy => by unfold simCom; rw [pow_mod_of_residue hMh (hxy 0)])
    rw [Fintype.card_fin, Nat.cast_one, one_mul] at key
    refine key.congr (fun o _ => ?_) (fun o _ => rfl)
    rw [hX]
    rfl
  refine (step1.trans step2).congr (fun t _ => rfl) (fun t _ => ?_)
  unfold simAnswer
  rw [hresp]
  rfl

/-- **C133** for a commitment modulus that is a product of two safe primes, as the library generates
it. -/
theorem C133_safe (P Q : Nat) (hP : SafePrime P) (hQ : SafePrime Q) (hPQ : P ≠ Q)
    (S : BbSetup gs h (P * Q : Nat) N s g ys xs v sk) (hx : ∀ x ∈ xs, x < N) (κ : Nat)
    (hκ : ((P * Q : Nat) : Int) ≤ κ * N) (pk : BbPublicKey) (bsk : BbPrivateKey)
    (ms rs : List Int) (cm om cr orr : Int) (R : BbRun gs N ys v pk bsk ms rs cm om cr orr)
    (z : Int) (hz : h ≡ z ^ 2 [ZMOD (P * Q : Nat)])
    (hgs : ∀ c ∈ gs, ∃ k : Nat, c ≡ h ^ k [ZMOD (P * Q : Nat)]) (H₀ : Hashes) (d : ReqDraws)
    (req : BbRequest) (π : BbReqProof) (st : List Bytes)
    (hreq : generateRequest H₀ v ms rs pk cm om cr orr d = .ok (req, π, st))
    (σs : List G) (hlen : σs.length = ms.length)
    (hσ : ∀ i < ms.length, IsBbSig v (BN.ofBytes bsk.k) (BN.ofBytes bsk.y) (ms.getD i 0)
      (rs.getD i 0) (σs.getD i 0))
    (c : Nat) (H : AnswerDraws ms.length ys.length → Hashes)
    (hc : ∀ t ∈ answerDraws v (P * Q : Nat) N ms.length ys.length, ∀ resp π',
      generateResponse (H t) v sk req pk cm cr (answerOf t) = .ok (resp, π') →
      BN.ofBytes π'.challenge = c) :
    Close (answerDraws v (P * Q : Nat) N ms.length ys.length)
      (fun t => generateResponse (H t) v sk req pk cm cr (answerOf t))
      (fun t => simAnswer v h (P * Q : Nat) st σs c t)
      (((2 * ms.length + ys.length + κ : Nat) : ℚ) / 2 ^ v.params.sec.toNat +
        ms.length / v.group.order + (P + Q : Nat) / (P * Q : Nat)) := by
  obtain ⟨h0, h1, h2, h3⟩ := safe_facts hP hQ hPQ
  have hMh : h ^ (P / 2 * (Q / 2)) ≡ 1 [ZMOD (P * Q : Nat)] := by
    have hzU : Int.gcd z (P * Q : Nat) = 1 := by
      have hb := S.base
      have e : Int.gcd (h % (P * Q : Nat)) (P * Q : Nat) =
          Int.gcd (z ^ 2 % (P * Q : Nat)) (P * Q : Nat) := by rw [hz]
      rw [gcd_emod_left, gcd_emod_left, hb] at e
      exact Int.isCoprime_iff_gcd_eq_one.1
        ((IsCoprime.pow_left_iff (by norm_num)).1 (Int.isCoprime_iff_gcd_eq_one.2 e.symm))
    refine (hz.pow _).trans ?_
    rw [← pow_mul]
    exact h3 z hzU
  refine (C133_answer S hx κ hκ pk bsk ms rs cm om cr orr R hgs _ h0 hMh H₀ d req π st hreq σs hlen hσ c H
    hc).mono ?_
  rw [Int.toNat_natCast]
  gcongr

/-! ### The hypotheses can be met -/

theorem C133_reached : ∃ (v : BbSig (ZMod 11)) (sk : CsPrivate) (pk : BbPublicKey)
    (bsk : BbPrivateKey) (cm om cr orr : Int) (d : ReqDraws) (req : BbRequest) (π : BbReqProof)
    (st : List Bytes) (σs : List (ZMod 11)) (c : Nat),
    SafePrime 227 ∧ SafePrime 263 ∧
    BbSetup toyViewGs 4 (227 * 263 : Nat) (11 * 23) 2 5779326 toyViewYs [3, 9] v sk ∧
    (∀ x ∈ [3, 9], x < ((11 * 23 : Nat) : Int)) ∧
    ((227 * 263 : Nat) : Int) ≤ (236 : Nat) * (11 * 23 : Nat) ∧
    BbRun toyViewGs (11 * 23) toyViewYs v pk bsk [1, 2, 10] [3, 0, 9] cm om cr orr ∧
    (4 : Int) ≡ 2 ^ 2 [ZMOD (227 * 263 : Nat)] ∧
    (∀ c ∈ toyViewGs, ∃ k : Nat, c ≡ 4 ^ k [ZMOD (227 * 263 : Nat)]) ∧
    generateRequest (Ped.fixedHash []) v [1, 2, 10] [3, 0, 9] pk cm om cr orr d = .ok (req, π, st) ∧
    σs.length = 3 ∧
    (∀ i < 3, IsBbSig v (BN.ofBytes bsk.k) (BN.ofBytes bsk.y) ([1, 2, 10].getD i 0)
      ([3, 0, 9].getD i 0) (σs.getD i 0)) ∧
    ∀ t ∈ answerDraws v (227 * 263 : Nat) (11 * 23) 3 2, ∀ resp π',
      generateResponse (Ped.fixedHash []) v sk req pk cm cr (answerOf t) = .ok (resp, π') →
      BN.ofBytes π'.challenge = c := by
  obtain ⟨v, sk, pk, bsk, c₀, p1, p2, p3, p4, S, -, -, hz, hgs, I, -, -, -⟩ := C127_reached
  have M := S.made
  have Gd := M.good
  have hq := M.order
  obtain ⟨cm, hcm⟩ : ∃ cm, Ped.commitWithRand v.ped [1, 2, 10] 55 = .ok cm :=
    ⟨_, Gd.commit ⟨by decide, by decide, by decide⟩⟩
  obtain ⟨cr, hcr⟩ : ∃ cr, Ped.commitWithRand v.ped [3, 0, 9] 66 = .ok cr :=
    ⟨_, Gd.commit ⟨by decide, by decide, by decide⟩⟩
  have R : BbRun toyViewGs (11 * 23) toyViewYs v pk bsk [1, 2, 10] [3, 0, 9] cm 55 cr 66 :=
    ⟨I.keys, I.sizes, I.messages, I.nonces, ⟨by decide, by decide⟩, hcm, hcr⟩
  let d : ReqDraws :=
    { a := fun i => i + 2, b := fun _ => 5, enc := fun i => i + 2
      openA := fun _ => 4, openB := 4, openAlphas := 4, openGammas := 4
      messages := fun _ => 0, rs := fun _ => 0, as := fun _ => 0, asOpen := fun _ => 0
      bs := fun _ => 0, alphas := fun _ => 0, gammas := fun _ => 0, messagesOpen := 0, rsOpen := 0
      bsOpen := 0, alphasOpen1 := 0, alphasOpen2 := 0, gammasOpen1 := 0, gammasOpen2 := 0
      dummyEnc := fun _ => 0 }
  obtain ⟨req, π, st, -, -, -, -, -, -, -, -, hnum, -, hgen, -⟩ := bb_run S R (Ped.fixedHash []) d
  rw [if_pos (by
    intro r hr
    unfold requestRandomness at hr
    rw [List.mem_append] at hr
    rcases hr with hr | hr
    · have hall : ∀ r ∈ (List.range (([1, 2, 10] : List Int).length + toyViewYs.length - 1)).map
          (fun i => (((i + 2 : Nat) : Int) % (11 * 23 : Nat))), RandOk (11 * 23) r := by decide
      obtain ⟨i, hi, rfl⟩ := List.mem_map.1 hr
      exact hall _ (List.mem_map.2 ⟨i, List.mem_range.2 (lt_of_lt_of_le (List.mem_range.1 hi)
        (Nat.div_le_self _ _)), rfl⟩)
    · obtain ⟨i, hi, rfl⟩ := List.mem_map.1 hr
      right
      exact Int.zero_emod _)] at hgen
  let σs : List (ZMod 11) := (List.range 3).map fun i =>
    BN.inv ([1, 2, 10].getD i 0 + BN.ofBytes bsk.k + BN.ofBytes bsk.y * [3, 0, 9].getD i 0) v.group.order •
      v.base
  have hσ : ∀ i < 3, IsBbSig v (BN.ofBytes bsk.k) (BN.ofBytes bsk.y) ([1, 2, 10].getD i 0)
      ([3, 0, 9].getD i 0) (σs.getD i 0) := by
    intro i hi
    obtain ⟨e1, _, _⟩ := BN.inv_spec (by omega : (0 : Int) < v.group.order) ((M.gcd_iff _).2
      fun hd => I.defined i hi (Int.modEq_zero_iff_dvd.2 hd))
    refine ⟨_, by rw [mul_comm]; exact e1, ?_⟩
    exact getD_map_range _ _ hi
  obtain ⟨βs, O, h0, h1, -, -⟩ := answer_points (σs := σs) S R hgen (by simp [σs]) hσ
  obtain ⟨c, -, hmet⟩ := response_met S pk cm cr h0 h1 req _ O []
  exact ⟨v, sk, pk, bsk, cm, 55, cr, 66, d, req, π, st, σs, c, p3, p4, S, by decide, by decide, R, hz, hgs,
    hgen, by simp [σs], hσ, fun t _ => hmet _⟩

end PJC.Props
