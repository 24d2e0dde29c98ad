import Verif.Props.BbZk
set_option linter.unusedSectionVars false
/-
C101: what the response proofs of the oblivious signature reveal.

The masks of the decryption keys and of the decrypted values hide them statistically.  The mask of
the opening of the commitment is drawn below `N * 2 ^ (challenge + security)` where `N` is the
modulus of the encryption scheme (bb_oblivious_signature.cc:1183-1184), while the opening is drawn
below the modulus `n` of the commitments: it is hidden only as far as `n` is not much larger
than `N`.
-/
namespace PJC.Bb
open PJC.Stat PJC.Ped

variable {G : Type} [AddCommGroup G] [DecidableEq G]

/-- Specification: the request is well formed and its ciphertexts decrypt to `βs`, which are in the
range that request proofs establish and invertible modulo the order of the group. -/
structure Opens (v : BbSig G) (sk : CsPrivate) (req : BbRequest) (βs : List Int) : Prop where
  num : req.num ≤ v.ped.gs.length
  size : req.cts.length = (req.num + v.cs.len - 1) / v.cs.len
  decrypts : ∃ cts pts, req.cts.mapM (Cs.parseCiphertextProto v.cs) = .ok cts ∧
    cts.mapM (Cs.decrypt sk) = .ok pts ∧ βs = pts.flatten.take req.num
  length : βs.length = req.num
  range : ∀ β ∈ βs, 0 ≤ β ∧
    β ≤ (v.group.order : Int) ^ 3 * (2 ^ (v.params.chal + v.params.sec).toNat + 2)
  units : ∀ β ∈ βs, ¬ (v.group.order : Int) ∣ β

/-- The masks of a response proof: of the decrypted values, of the decryption keys and of the
opening. -/
abbrev RespMask (k L : Nat) := Fin k ⊕ Fin L ⊕ Unit

/-- bb_oblivious_signature.cc:1170-1184: their bounds. -/
def respBounds (v : BbSig G) (N k L : Nat) : RespMask k L → Nat :=
  let q := v.group.order
  let T := 2 ^ (v.params.chal + v.params.sec).toNat
  fun
    | .inl _ => q * (q * q * T * T)
    | .inr _ => N * T

/-- The draws `d` with the masks replaced by `a`. -/
def remaskResp {k L : Nat} (d : RespDraws) (a : RespMask k L → Nat) : RespDraws :=
  { d with
    betas := drawFn fun i => a (.inl i)
    xs := drawFn fun j => a (.inr (.inl j))
    opening := a (.inr (.inr ())) }

/-- Specification: a simulated response proof. -/
def simResponse {k L : Nat} (commitBetas : Bytes) (c : Nat) (a : RespMask k L → Nat) :
    BbRespProof :=
  ⟨commitBetas, BN.natToBytes c, natVec fun j => a (.inr (.inl j)), natVec fun i => a (.inl i),
    BN.natToBytes (a (.inr (.inr ())))⟩

/-- What masking adds to the draws. -/
def respShift {k L : Nat} (c : Nat) (βs xs : List Int) (o : Int) : RespMask k L → Nat
  | .inl i => c * (βs.getD i 0).toNat
  | .inr (.inl j) => c * (xs.getD j 0).toNat
  | .inr (.inr _) => c * o.toNat

/-- The weights of the masks in the statistical distance. -/
def respWeight {k L : Nat} (κ : Nat) : RespMask k L → Nat
  | .inl _ => 2
  | .inr (.inl _) => 1
  | .inr (.inr _) => κ

theorem mapM_decryptOne {v : BbSig G} {sk : CsPrivate} : ∀ {ps : List CsCtProto} {cts : List CsCt}
    {pts : List (List Int)}, ps.mapM (Cs.parseCiphertextProto v.cs) = .ok cts →
    cts.mapM (Cs.decrypt sk) = .ok pts → ps.mapM (decryptOne v sk) = .ok (cts.zip pts)
  | [], cts, pts, h1, h2 => by cases h1; cases h2; rfl
  | p :: ps, cts, pts, h1, h2 => by
    rw [List.mapM_cons] at h1
    simp only [Res.bind_eq_ok, Res.pure_eq, Res.ok.injEq] at h1
    obtain ⟨ct, e1, cts', e2, rfl⟩ := h1
    rw [List.mapM_cons] at h2
    simp only [Res.bind_eq_ok, Res.pure_eq, Res.ok.injEq] at h2
    obtain ⟨pt, e3, pts', e4, rfl⟩ := h2
    rw [List.mapM_cons, mapM_decryptOne e2 e4]
    unfold decryptOne
    rw [e1, Res.ok_bind, e3, Res.ok_bind]
    rfl

theorem mapM_length' {α β : Type} {f : α → Res β} {l : List α} {r : List β}
    (h : l.mapM f = .ok r) : r.length = l.length :=
  (Cs.mapM_ok_iff.1 h).length_eq.symm

variable {gs : List Int} {h n : Int} {N s : Nat} {g : Int} {ys xs : List Int} {v : BbSig G}
  {sk : CsPrivate}

/-- The response generator in closed form. -/
theorem Made.response_closed (M : Made gs h n N s g ys v) (S : Priv N s g ys xs sk)
    {req : BbRequest} {βs : List Int} (R : Opens v sk req βs) (pk : BbPublicKey) {cm cr : Int}
    (hcm : 0 ≤ cm) (hcr : 0 ≤ cr) :
    ∃ resp, ecPointVectorToProto v.group (βs.map (sigP v)) = .ok resp ∧
      ∀ (d : RespDraws) (H : Hashes),
      (∀ x, generateResponse H v sk req pk cm cr d = .ok x →
        ∀ i < req.num, ¬ (v.group.order : Int) ∣ (d.betas i : Int) % dBetaB v) ∧
      ((∀ i < req.num, ¬ (v.group.order : Int) ∣ (d.betas i : Int) % dBetaB v) →
      ∃ c : Nat, (∃ cb m1, 0 ≤ cb ∧ responseChallenge H v pk cm cr req resp cb m1 = .ok (c : Int)) ∧
        c < 2 ^ v.params.chal.toNat ∧
        generateResponse H v sk req pk cm cr d = .ok (resp,
          ⟨encB (commitment gs h n βs ((d.openBetas : Int) % n)), encB (c : Int),
            vecB (maskL c (drawP ys.length ((N : Int) * 2 ^ tBits v) d.xs) xs),
            vecB (maskL c (drawP req.num (dBetaB v) d.betas) βs),
            encB ((d.opening : Int) % ((N : Int) * 2 ^ tBits v) +
              c * ((d.openBetas : Int) % n))⟩)) := by
  obtain ⟨cfg, P⟩ := M.pub
  obtain ⟨cfg', P'⟩ := S.sk
  have K := S.rel
  have hM := modulus_pos P
  have hL := M.len0
  have hq := M.order
  have hn := M.n0
  have Gd := M.good
  have hN : (0 : Int) < N := by have := M.N1; omega
  have hxl : xs.length = ys.length := K.len.symm
  obtain ⟨cts, pts, hparse, hdecr, hβs⟩ := R.decrypts
  have hdec := mapM_decryptOne hparse hdecr
  have lc : cts.length = req.cts.length := mapM_length' hparse
  have lp : pts.length = cts.length := mapM_length' hdecr
  have hsz : cts.length = numCts req.num ys.length := by
    rw [lc, R.size, P.hlen]; rfl
  have hfst : (cts.zip pts).map Prod.fst = cts := List.map_fst_zip (by omega)
  have hsnd : (cts.zip pts).map Prod.snd = pts := List.map_snd_zip (by omega)
  have hall : ¬ pts.flatten.length < req.num := by
    have := R.length
    rw [hβs, List.length_take] at this
    omega
  have hsign : βs.mapM (signOne v) = .ok (βs.map (sigP v)) := by
    apply mapM_eq_map
    intro b hb
    unfold signOne BN.modInverse
    rw [if_pos ⟨by omega, (M.gcd_iff b).2 (R.units b hb)⟩]
    rfl
  have hgen0 : ¬ (req.num > v.ped.gs.length) := by have := R.num; omega
  have hb0 : ∀ b ∈ βs, 0 ≤ b := fun b hb => (R.range b hb).1
  have hs0 : ∀ P ∈ βs.map (sigP v), P ≠ 0 := by
    intro P hP
    obtain ⟨b, hb, rfl⟩ := List.mem_map.1 hP
    exact M.sigP_ne (R.units b hb)
  obtain ⟨resp, hresp, hresp'⟩ := ecPoints_round M.lawful hs0
  refine ⟨resp, hresp, fun d H => ?_⟩
  have lg : βs.length ≤ gs.length := by rw [R.length, ← Gd.gs_eq]; exact R.num
  have hr0 : 0 ≤ (d.openBetas : Int) % n := Int.emod_nonneg _ hn.ne'
  have vb : Valid gs βs ((d.openBetas : Int) % n) := ⟨lg, hb0, hr0⟩
  have hcb : Ped.commit v.ped βs d.openBetas =
      .ok (commitment gs h n βs ((d.openBetas : Int) % n), (d.openBetas : Int) % n) := by
    unfold Ped.commit
    rw [Gd.n_eq, randLessThan_eq _ hn, Res.ok_bind, Gd.commit vb]
    rfl
  set cb := commitment gs h n βs ((d.openBetas : Int) % n) with hcbd
  have hcb0 : 0 ≤ cb := commitment_nonneg hn _ _
  have hB := M.dBetaB_pos
  have hX : 0 < (N : Int) * 2 ^ tBits v := by positivity
  obtain ⟨hdl, hd0⟩ := drawP_ok hB req.num d.betas
  set dBs := drawP req.num (dBetaB v) d.betas with hdBs
  obtain ⟨hxl', hx0⟩ := drawP_ok hX ys.length d.xs
  set dXs := drawP ys.length ((N : Int) * 2 ^ tBits v) d.xs with hdXs
  set dO := (d.opening : Int) % ((N : Int) * 2 ^ tBits v) with hdO
  have hdO0 : 0 ≤ dO := Int.emod_nonneg _ hX.ne'
  have vd : Valid gs dBs dO := ⟨by rw [hdl, ← R.length]; exact lg, hd0, hdO0⟩
  set dC := commitment gs h n dBs dO with hdC
  have hdC0 : 0 ≤ dC := commitment_nonneg hn _ _
  have hYs : dXs.mapM (fun x => BN.modExp sk.pub.g x sk.pub.modulus) =
      .ok (dXs.map fun x => g ^ x.toNat % (N : Int) ^ (s + 1)) := by
    rw [P'.pub.hg, P'.pub.hmod]
    exact mapM_eq_map (fun x hx => modExp_ok (hx0 x hx) hM.ne')
  have hYs0 : ∀ y ∈ dXs.map (fun x => g ^ x.toNat % (N : Int) ^ (s + 1)), 0 ≤ y := by
    intro y hy
    obtain ⟨x, _, rfl⟩ := List.mem_map.1 hy
    exact Int.emod_nonneg _ hM.ne'
  set dYs := dXs.map (fun x => g ^ x.toNat % (N : Int) ^ (s + 1)) with hdYs
  have hEs : (List.range req.cts.length).mapM (dummyEs v sk req.num cts dBs dXs) =
      .ok ((List.range req.cts.length).map fun i =>
        vecB (dumEsP ((N : Int) ^ (s + 1)) N g ys req.num cts dBs dXs i)) := by
    apply mapM_eq_map
    intro i hi
    have hi : i < numCts req.num ys.length := by
      rw [← hsz, lc]; simpa using hi
    exact S.dummyEs_ok M hsz hdl hd0 hxl' hx0 hi
  have gen : generateResponse H v sk req pk cm cr d = (do
      let m1Gs ← ecPointVectorToProto v.group (List.zipWith (· • ·) dBs (βs.map (sigP v)))
      let c ← responseChallenge H v pk cm cr req resp cb ⟨vecB dYs, encB dC, m1Gs,
        (List.range req.cts.length).map fun i =>
          vecB (dumEsP ((N : Int) ^ (s + 1)) N g ys req.num cts dBs dXs i)⟩
      let challenge ← BN.toBytes c
      let mBetas ← bigNumVectorToProto (maskL c dBs βs)
      let mXsBytes ← bigNumVectorToProto (maskL c dXs xs)
      let mOpening ← BN.toBytes (dO + c * ((d.openBetas : Int) % n))
      return (resp, ⟨encB cb, challenge, mXsBytes, mBetas, mOpening⟩)) := by
    unfold generateResponse
    rw [if_neg hgen0, hdec, Res.ok_bind]
    simp only [hfst, hsnd]
    rw [if_neg hall, ← hβs, hsign]
    simp only [Res.ok_bind, hresp, hcb, toBytes_encB hcb0, M.betasBound_ok.1, drawList_ok hB,
      ← hdBs, P.hn, P.hlen, M.shift_t, drawList_ok hX, ← hdXs, randLessThan_eq _ hX, ← hdO,
      Gd.commit vd, hYs, toProto_vecB hYs0, toBytes_encB hdC0, hEs, mask_eq_maskL, P'.hxs,
      maskXs_ok hxl' hxl, mul_comm ((d.openBetas : Int) % n), ← hdC]
  constructor
  · intro x hx i hi hdv
    rw [gen] at hx
    simp only [Res.bind_eq_ok] at hx
    obtain ⟨m1Gs, hGs, -⟩ := hx
    have e : (List.zipWith (· • ·) dBs (βs.map (sigP v)))[i]'(by simp [R.length]; omega) = 0 := by
      simp only [List.getElem_zipWith]
      have e1 : dBs[i]'(by omega) = (d.betas i : Int) % dBetaB v := by simp [hdBs, drawP]
      rw [e1]
      obtain ⟨t, ht⟩ := hdv
      rw [ht, mul_comm, mul_smul, M.lawful.order_zsmul, smul_zero]
    exact (ecPoints_ok M.lawful hGs).1 _ (List.getElem_mem (by simp [R.length]; omega)) e
  intro hz
  obtain ⟨m1Gs, hGs⟩ : ∃ m1Gs, ecPointVectorToProto v.group
      (List.zipWith (· • ·) dBs (βs.map (sigP v))) = .ok m1Gs := by
    rcases ecPoints_cases M.lawful (List.zipWith (· • ·) dBs (βs.map (sigP v))) with h0 | ⟨h0, _⟩
    · exact h0
    · exfalso
      obtain ⟨i, hi, hi0⟩ := List.mem_iff_getElem.1 h0
      have hi' : i < req.num := by simp at hi; omega
      simp only [List.getElem_zipWith] at hi0
      refine M.lawful.zsmul_ne ?_ (hs0 _ (List.getElem_mem _)) hi0
      have : dBs[i]'(by omega) = (d.betas i : Int) % dBetaB v := by simp [hdBs, drawP]
      rw [this]
      exact hz i hi'
  obtain ⟨c, hc, hc0, hc1⟩ := M.responseChallenge_ok H pk hcm hcr hcb0 req resp
    ⟨vecB dYs, encB dC, m1Gs, (List.range req.cts.length).map fun i =>
        vecB (dumEsP ((N : Int) ^ (s + 1)) N g ys req.num cts dBs dXs i)⟩
  have hmb0 := maskL_nonneg hc0 hd0 hb0
  have hmx0 := maskL_nonneg hc0 hx0 K.nonneg
  have hmo0 : 0 ≤ dO + c * ((d.openBetas : Int) % n) := add_nonneg hdO0 (mul_nonneg hc0 hr0)
  obtain ⟨c, rfl⟩ := Int.eq_ofNat_of_zero_le hc0
  refine ⟨c, ⟨_, _, hcb0, hc⟩, by exact_mod_cast hc1, ?_⟩
  rw [gen, hGs, Res.ok_bind, hc]
  simp only [Res.ok_bind, toBytes_encB hc0, toProto_vecB hmb0, toProto_vecB hmx0,
    toBytes_encB hmo0, Res.pure_eq]

/-- The requests of the honest protocol are such requests. -/
theorem Made.opens (M : Made gs h n N s g ys v) (S : Priv N s g ys xs sk) {req : BbRequest}
    {cts : List CsCt} {β : Nat → Int} (R : ReqOk v gs N s ys xs req cts β)
    (hu : ∀ i < req.num, ¬ (v.group.order : Int) ∣ β i) :
    Opens v sk req ((List.range req.num).map β) := by
  obtain ⟨cfg, P⟩ := M.pub
  obtain ⟨cfg', P'⟩ := S.sk
  have hL := M.len0
  have hkm : req.num ≤ cts.length * ys.length := by rw [R.len]; exact numCts_mul hL
  refine ⟨by rw [M.good.gs_eq]; exact R.num, ?_, ⟨cts, (List.range cts.length).map fun i =>
    (List.range ys.length).map fun j => β (i * ys.length + j) % (N : Int) ^ s, ?_, ?_, ?_⟩,
    by simp, ?_, ?_⟩
  · rw [R.proto, List.length_map, R.len, P.hlen]
    rfl
  · rw [R.proto]; exact Wf.parses P R.wf
  · conv_lhs => rw [← map_getD_range (default : CsCt) cts]
    rw [List.mapM_map]
    apply mapM_eq_map
    intro i hi
    have hi : i < cts.length := by simpa using hi
    simp only [Function.comp]
    rw [Cs.decrypt_spec P' S.rel.nonneg (R.enc i hi), S.rel.len]
  · rw [flatten_batches (fun i => β i % (N : Int) ^ s), take_map_range _ hkm]
    apply List.map_congr_left
    intro i hi
    have hi : i < req.num := by simpa using hi
    have := M.beta_bound
    have := R.bound i hi
    exact (Int.emod_eq_of_lt (R.nonneg i hi) (by omega)).symm
  · intro b hb
    obtain ⟨i, hi, rfl⟩ := List.mem_map.1 hb
    have hi : i < req.num := by simpa using hi
    exact ⟨R.nonneg i hi, R.bound i hi⟩
  · intro b hb
    obtain ⟨i, hi, rfl⟩ := List.mem_map.1 hb
    exact hu i (by simpa using hi)

theorem mapM_exists {α β : Type} {f : α → Res β} {Q : β → Prop} : ∀ l : List α,
    (∀ x ∈ l, ∃ y, f x = .ok y ∧ Q y) → ∃ r, l.mapM f = .ok r ∧ ∀ y ∈ r, Q y
  | [], _ => ⟨[], rfl, by simp⟩
  | x :: l, hx => by
    obtain ⟨y, hy, hq⟩ := hx x (by simp)
    obtain ⟨r, hr, hrq⟩ := mapM_exists l (fun z hz => hx z (by simp [hz]))
    refine ⟨y :: r, ?_, ?_⟩
    · rw [List.mapM_cons, hy, Res.ok_bind, hr, Res.ok_bind]; rfl
    · intro z hz
      rcases List.mem_cons.1 hz with rfl | hz
      · exact hq
      · exact hrq z hz

/-- The verifier computes a first message from any responses, unless it meets the point at
infinity. -/
theorem Made.simulated_response (M : Made gs h n N s g ys v) {req : BbRequest}
    {cts : List CsCt} {β : Nat → Int} (R : ReqOk v gs N s ys xs req cts β)
    (hu : ∀ i < req.num, ¬ (v.group.order : Int) ∣ β i) {resp : List Bytes}
    (hresp : ecPointVectorToProto v.group ((List.range req.num).map fun i => sigP v (β i)) =
      .ok resp) {cb : Int} (hcb0 : 0 ≤ cb) (hcbU : Int.gcd cb n = 1) (c : Nat)
    (a : RespMask req.num ys.length → Nat) (ha : a ∈ Box (respBounds v N req.num ys.length))
    (hinf : ∀ i : Fin req.num, a (.inl i) • sigP v (β i) ≠ c • v.base) :
    ∃ m1 : BbRespMessage1, ∀ (H : Hashes) (pk : BbPublicKey) (cm cr : Int),
      responseChallenge H v pk cm cr req resp cb m1 = .ok (c : Int) →
      verifyResponse H v pk resp (simResponse (encB cb) c a) req cm cr = .ok () := by
  obtain ⟨cfg, P⟩ := M.pub
  have hM := modulus_pos P
  have hL := M.len0
  have hn := M.n0
  have Gd := M.good
  have U := M.units
  rw [mem_box] at ha
  have hc0 : (0 : Int) ≤ (c : Int) := by omega
  set sigs := (List.range req.num).map fun i => sigP v (β i) with hsigs
  have hs0 : ∀ P ∈ sigs, P ≠ 0 := by
    intro P hP
    obtain ⟨i, hi, rfl⟩ := List.mem_map.1 hP
    exact M.sigP_ne (hu i (by simpa using hi))
  obtain ⟨resp', hr1, hr2⟩ := ecPoints_round M.lawful hs0
  rw [hresp] at hr1
  cases hr1
  have hlr : resp.length = req.num := by
    have := mapM_length' (f := _) (l := sigs) (r := resp) hresp
    simpa [hsigs] using this
  set zb := intVec fun i => a (.inl i) with hzb
  set zx := intVec fun j => a (.inr (.inl j)) with hzx
  have lb : zb.length = req.num := intVec_length _
  have lx : zx.length = ys.length := intVec_length _
  have nb : ∀ b ∈ zb, 0 ≤ b := intVec_nonneg _
  have nx : ∀ x ∈ zx, 0 ≤ x := intVec_nonneg _
  have hparse : req.cts.mapM (Cs.parseCiphertextProto v.cs) = .ok cts := by
    rw [R.proto]; exact Wf.parses P R.wf
  have hbnd : zb.any (fun b => decide (b ≥ dBetaB v * 2)) = false := by
    apply any_ge_false
    intro x hx
    obtain ⟨i, rfl⟩ := List.mem_ofFn.1 hx
    have h1 := ha (.inl i)
    have eB : dBetaB v = (respBounds v N req.num ys.length (.inl i) : Int) := by
      unfold dBetaB tBits
      simp only [respBounds]
      push_cast
      rw [two_mul, pow_add]; ring
    rw [eB]
    have : ((a (.inl i) : Nat) : Int) < respBounds v N req.num ys.length (.inl i) := by
      exact_mod_cast h1
    show ((a (.inl i) : Nat) : Int) < _
    omega
  set pts := List.zipWith (fun (σ : G) (b : Int) => b • σ + -((c : Int) • v.base)) sigs zb with hpts
  obtain ⟨m1Gs, hGs⟩ : ∃ m1Gs, ecPointVectorToProto v.group pts = .ok m1Gs := by
    rcases ecPoints_cases M.lawful pts with h0 | ⟨h0, _⟩
    · exact h0
    · exfalso
      obtain ⟨i, hi, hi0⟩ := List.mem_iff_getElem.1 h0
      have hi' : i < req.num := by simp [hpts, hsigs, lb] at hi; omega
      simp only [hpts, hsigs, hzb, List.getElem_zipWith, List.getElem_map, List.getElem_range, intVec,
        List.getElem_ofFn] at hi0
      refine hinf ⟨i, hi'⟩ ?_
      have hi1 : ((a (.inl ⟨i, hi'⟩) : Nat) : Int) • sigP v (β i) + -((c : Int) • v.base) = 0 := hi0
      rw [← sub_eq_add_neg, sub_eq_zero] at hi1
      exact (natCast_zsmul _ _).symm.trans (hi1.trans (natCast_zsmul _ _))
  obtain ⟨m1Es, hEs, -⟩ := mapM_exists (f := recomputeEs v (c : Int) req.num cts zb zx)
    (Q := fun _ => True) (List.range req.cts.length) (by
    intro i hi
    have hi : i < numCts req.num ys.length := by
      rw [← R.len]; rw [R.proto] at hi; simpa using hi
    have hic : i < cts.length := by rw [R.len]; exact hi
    have W := R.wf _ (getD_mem default hic)
    have hbl : ((zb.drop (i * ys.length)).take (batchSize ys.length req.num i)).length
        ≤ ys.length := by
      rw [batch_length lb]
      unfold batchSize
      omega
    obtain ⟨es, h1, h2⟩ := mapM_exists (f := recomputeE v (c : Int) (cts.getD i default) zx
      (encP ((N : Int) ^ (s + 1)) N g ys ((zb.drop (i * ys.length)).take
        (batchSize ys.length req.num i)) 0).es) (Q := fun e => 0 ≤ e)
      (List.range (batchSize ys.length req.num i)) (by
      intro j hj
      have hj : j < batchSize ys.length req.num i := by simpa using hj
      have hj' : j < ys.length := by unfold batchSize at hj; omega
      have hje : j < (cts.getD i default).es.length := by rw [W.len]; exact hj'
      unfold recomputeE
      rw [idx_ok 0 (by simpa [encP] using hj'), Res.ok_bind, idx_ok 0 (by omega), Res.ok_bind,
        P.hmod, modExp_ok (getD_nonneg nx j) hM.ne', Res.ok_bind, modMul_ok hM.ne', Res.ok_bind,
        idx_ok 0 hje, Res.ok_bind, modExp_ok hc0 hM.ne', Res.ok_bind]
      obtain ⟨iv, k1, _, _⟩ := recover hM (W.es _ (getD_mem 0 hje)).2.2 (c : Int).toNat
      rw [k1, Res.ok_bind, modMul_ok hM.ne']
      exact ⟨_, rfl, Int.emod_nonneg _ hM.ne'⟩)
    refine ⟨vecB es, ?_, trivial⟩
    unfold recomputeEs
    rw [P.hlen, batch_ok hL hi, Res.ok_bind,
      encryptWithRand_ok P hbl (drop_take_nonneg nb _ _) le_rfl (.inr rfl), Res.ok_bind,
      idx_ok default hic, Res.ok_bind, batch_length lb, h1, Res.ok_bind]
    exact toProto_vecB h2)
  have vm : Valid gs zb (a (.inr (.inr ())) : Int) := ⟨by rw [lb]; exact R.num, nb, by omega⟩
  obtain ⟨D, hD, hD0⟩ : ∃ D, unmask v.ped (c : Int)
      (commitment gs h n zb (a (.inr (.inr ())) : Int)) cb = .ok D ∧ 0 ≤ D := by
    obtain ⟨i, h1, _, _⟩ := recover hn hcbU (c : Int).toNat
    refine ⟨commitment gs h n zb (a (.inr (.inr ())) : Int) * i % n, ?_, Int.emod_nonneg _ hn.ne'⟩
    unfold unmask Ped.multiply Ped.add
    rw [Gd.n_eq, modExp_ok hc0 hn.ne', Res.ok_bind, h1, Res.ok_bind, modMul_ok hn.ne']
  obtain ⟨dYs, hYs, hYs0⟩ := mapM_exists (f := recomputeY v (c : Int) zx)
    (Q := fun y => 0 ≤ y) (List.range v.cs.len) (by
    intro i hi
    have hi : i < ys.length := by rw [P.hlen] at hi; simpa using hi
    unfold recomputeY
    rw [idx_ok 0 (by omega), Res.ok_bind, P.hg, P.hmod,
      modExp_ok (getD_nonneg nx i) hM.ne', Res.ok_bind, P.hys, idx_ok 0 hi, Res.ok_bind,
      modExp_ok hc0 hM.ne', Res.ok_bind]
    obtain ⟨iv, k1, _, _⟩ := recover hM (U.hys _ (getD_mem 0 hi)) (c : Int).toNat
    rw [k1, Res.ok_bind, modMul_ok hM.ne']
    exact ⟨_, rfl, Int.emod_nonneg _ hM.ne'⟩)
  refine ⟨⟨vecB dYs, encB D, m1Gs, m1Es⟩, ?_⟩
  intro H pk cm cr hch
  have eπ : simResponse (encB cb) c a = ⟨encB cb, encB (c : Int), vecB zx, vecB zb,
      encB (a (.inr (.inr ())) : Int)⟩ := by
    simp only [hzb, hzx, vecB_intVec, encB_nat, simResponse]
  rw [eπ]
  have hab : (0 : Int) ≤ (a (.inr (.inr ())) : Int) := by omega
  unfold verifyResponse
  simp only [vecB_length, lx, lb, P.hlen, hlr]
  rw [if_neg (by simp), if_neg (by simp), if_neg (by simp)]
  rw [P.hlen] at hYs
  simp only [hparse, Res.ok_bind, hr2, ofBytes_encB hcb0, ofBytes_encB hc0, parse_vecB nx,
    parse_vecB nb, ofBytes_encB hab, M.betasBound_ok.2, hbnd]
  simp only [← hpts, hGs, Res.ok_bind, hEs, Gd.commit vm, hD, toBytes_encB hD0, hYs,
    toProto_vecB hYs0, hch]
  simp

end PJC.Bb

namespace PJC.Props
open PJC.Bb PJC.DJ PJC.Stat

variable {G : Type} [AddCommGroup G] [DecidableEq G]
variable {gs : List Int} {h n : Int} {N s : Nat} {g : Int} {ys xs : List Int} {v : BbSig G}
  {sk : CsPrivate}

/-- **C101**, in part.  Take a request that decrypts to `βs`, and the response `(resp, π₀)` to it.
Fix the challenge `c`, draw the masks afresh, and for each draw let the hash function be any that
leads to that challenge.  If the decryption keys are below `N` (as generated keys are) and the
modulus of the commitments is at most `κ N`, then what `GenerateResponseAndProof` returns is
distributed like the response with a simulated proof, up to a statistical distance of
`(2 L + len + κ) / 2 ^ security + L / q`, for `L` values, `len` decryption keys and the order `q`
of the group.  (The second summand is the probability that a mask is a multiple of `q` and the
generator fails.)  Missing is the bound without `κ`, which is false: `C101_opening_fails`. -/
theorem C101_response_partial (S : BbSetup gs h n N s g ys xs v sk) (hx : ∀ x ∈ xs, x < N) (κ : Nat)
    (hκ : n ≤ κ * N) (pk : BbPublicKey) (cm cr : Int) (hcm : 0 ≤ cm) (hcr : 0 ≤ cr)
    (req : BbRequest) (βs : List Int) (R : Opens v sk req βs) (H₀ : Hashes) (d : RespDraws)
    (resp : List Bytes) (π₀ : BbRespProof)
    (h₀ : generateResponse H₀ v sk req pk cm cr d = .ok (resp, π₀))
    (c : Nat) (H : (RespMask req.num ys.length → Nat) → Hashes)
    (hc : ∀ a ∈ Box (respBounds v N req.num ys.length), ∀ resp' π,
      generateResponse (H a) v sk req pk cm cr (remaskResp d a) = .ok (resp', π) →
      BN.ofBytes π.challenge = c) :
    StatClose (Box (respBounds v N req.num ys.length))
      (fun a => generateResponse (H a) v sk req pk cm cr (remaskResp d a))
      (fun a => .ok (resp, simResponse π₀.commitBetas c a))
      ((2 * req.num + ys.length + κ) * v.group.order + req.num * 2 ^ v.params.sec.toNat)
      (2 ^ v.params.sec.toNat * v.group.order) := by
  have M := S.made
  have hn := M.n0
  have hq := M.order
  have hN := M.N1
  have Kr := S.priv.rel
  have hqN : 0 < v.group.order := by omega
  obtain ⟨resp', hresp, form⟩ := M.response_closed S.priv R pk hcm hcr
  obtain ⟨c₀, -, -, e₀⟩ := (form d H₀).2 ((form d H₀).1 _ h₀)
  rw [h₀] at e₀
  simp only [Res.ok.injEq, Prod.mk.injEq] at e₀
  obtain ⟨rfl, rfl⟩ := e₀
  have hT2 : 2 ≤ 2 ^ (v.params.chal + v.params.sec).toNat := by
    have := M.chal0
    have := M.sec0
    calc 2 = 2 ^ 1 := rfl
      _ ≤ _ := Nat.pow_le_pow_right (by norm_num) (by omega)
  have et : (2 : Nat) ^ (v.params.chal + v.params.sec).toNat =
      2 ^ v.params.chal.toNat * 2 ^ v.params.sec.toNat := by
    rw [← pow_add]
    congr 1
    have := M.chal0; have := M.sec0; omega
  set T := 2 ^ (v.params.chal + v.params.sec).toNat with hT
  have hpos : ∀ i, 0 < respBounds v N req.num ys.length i := by
    have h3 : 0 < N := by omega
    intro i
    rcases i with i | j <;> simp only [respBounds] <;> positivity
  set o : Int := (d.openBetas : Int) % n with ho
  have ho0 : 0 ≤ o := Int.emod_nonneg _ hn.ne'
  have hon : o < n := Int.emod_lt_of_pos _ hn
  -- the real experiment
  have run : ∀ a ∈ Box (respBounds v N req.num ys.length),
      (∀ i : Fin req.num, ¬ v.group.order ∣ a (.inl i)) → c < 2 ^ v.params.chal.toNat ∧
      generateResponse (H a) v sk req pk cm cr (remaskResp d a) =
        .ok (resp, simResponse (encB (Ped.commitment gs h n βs o)) c
          (fun i => a i + respShift c βs xs o i)) := by
    intro a ha hu
    rw [mem_box] at ha
    have eB : dBetaB v = ((v.group.order * (v.group.order * v.group.order * T * T) : Nat) : Int) := by
      unfold dBetaB tBits
      push_cast [hT]
      rw [two_mul, pow_add]; ring
    have eN : (N : Int) * 2 ^ tBits v = ((N * T : Nat) : Int) := by push_cast [hT]; rfl
    have em : ∀ i (hi : i < req.num), (((remaskResp d a).betas i : Nat) : Int) % dBetaB v =
        (a (.inl ⟨i, hi⟩) : Int) := by
      intro i hi
      have : (remaskResp d a).betas i = a (.inl ⟨i, hi⟩) := by
        simp only [remaskResp, drawFn, hi, dif_pos]
      rw [this, eB]
      exact Int.emod_eq_of_lt (by omega) (by exact_mod_cast ha (.inl ⟨i, hi⟩))
    obtain ⟨c', -, hcl, e⟩ := (form (remaskResp d a) (H a)).2 (by
      intro i hi
      rw [em i hi]
      intro hdv
      exact hu ⟨i, hi⟩ (by exact_mod_cast hdv))
    have hcc := hc a (mem_box.2 ha) _ _ e
    have hch : BN.ofBytes (encB (c' : Int)) = (c' : Int) := ofBytes_encB (by omega)
    simp only [hch] at hcc
    have hcc : c' = c := by exact_mod_cast hcc
    subst hcc
    have e1 : drawP req.num (dBetaB v) (remaskResp d a).betas = intVec fun i => a (.inl i) :=
      drawP_drawFn (f := fun i => a (.inl i)) (fun i => by rw [eB]; exact_mod_cast ha (.inl i))
    have e2 : drawP ys.length ((N : Int) * 2 ^ tBits v) (remaskResp d a).xs =
        intVec fun j => a (.inr (.inl j)) :=
      drawP_drawFn (f := fun j => a (.inr (.inl j))) (fun j => by rw [eN]; exact_mod_cast ha (.inr (.inl j)))
    have e3 : (((remaskResp d a).opening : Nat) : Int) % ((N : Int) * 2 ^ tBits v) =
        (a (.inr (.inr ())) : Int) := by
      rw [eN]
      exact Int.emod_eq_of_lt (by simp [remaskResp]) (by exact_mod_cast ha (.inr (.inr ())))
    have e4 : (remaskResp d a).openBetas = d.openBetas := rfl
    rw [e1, e2, e3, e4, ← ho] at e
    have f1 : maskL (c' : Int) (intVec fun i : Fin req.num => a (.inl i)) βs =
        intVec fun i => a (.inl i) + c' * (βs.getD i 0).toNat :=
      mask_intVec c' _ ⟨R.length, fun x hx => (R.range x hx).1⟩
    have f2 : maskL (c' : Int) (intVec fun j : Fin ys.length => a (.inr (.inl j))) xs =
        intVec fun j => a (.inr (.inl j)) + c' * (xs.getD j 0).toNat :=
      mask_intVec c' _ ⟨Kr.len.symm, Kr.nonneg⟩
    have f3 : (a (.inr (.inr ())) : Int) + c' * o =
        ((a (.inr (.inr ())) + c' * o.toNat : Nat) : Int) := by
      push_cast; rw [Int.toNat_of_nonneg ho0]
    rw [f1, f2, f3, vecB_intVec, vecB_intVec, encB_nat, encB_nat] at e
    exact ⟨hcl, e⟩
  have hcl : c < 2 ^ v.params.chal.toNat := by
    refine (run (fun | .inl _ => 1 | .inr _ => 0) (mem_box.2 ?_) ?_).1
    · intro i
      have h1 := hpos i
      rcases i with i | j
      · show 1 < v.group.order * (v.group.order * v.group.order * T * T)
        have : 0 < v.group.order * v.group.order * T * T := by positivity
        calc 1 < v.group.order * 1 := by omega
          _ ≤ _ := Nat.mul_le_mul_left _ this
      · exact h1
    · intro i hdv
      have : v.group.order ≤ 1 := Nat.le_of_dvd (by norm_num) hdv
      omega
  -- draws with which the generator fails
  have hbad : ∀ j : Fin req.num, ((Finset.range (respBounds v N req.num ys.length (.inl j))).filter
      fun x => v.group.order ∣ x).card * v.group.order ≤
      1 * respBounds v N req.num ys.length (.inl j) := by
    intro j
    simp only [respBounds]
    rw [card_dvd hqN]
    apply le_of_eq
    ring
  obtain ⟨V, hV, hVm, hVc⟩ := exists_bad (respBounds v N req.num ys.length)
    (fun j : Fin req.num => .inl j) (fun _ (x : Nat) => v.group.order ∣ x) hpos 1
    v.group.order hbad
  have lst : ∀ (l : List Int) (X : Nat), (∀ x ∈ l, x ≤ (X : Int)) → ∀ i : Nat,
      (l.getD i 0).toNat ≤ X := by
    intro l X hX i
    by_cases hi : i < l.length
    · have := hX _ (getD_mem 0 hi)
      omega
    · rw [List.getD_eq_getElem?_getD, List.getElem?_eq_none (by omega)]
      simp
  have small : ∀ i, respShift c βs xs o i * 2 ^ v.params.sec.toNat ≤
      respWeight κ i * respBounds v N req.num ys.length i := by
    have step : ∀ x X : Nat, x ≤ X → c * x * 2 ^ v.params.sec.toNat ≤ X * T := by
      intro x X hxX
      rw [et]
      calc c * x * 2 ^ v.params.sec.toNat
          ≤ 2 ^ v.params.chal.toNat * X * 2 ^ v.params.sec.toNat :=
            Nat.mul_le_mul_right _ (Nat.mul_le_mul hcl.le hxX)
        _ = _ := by ring
    intro i
    rcases i with i | j | u <;> simp only [respShift, respBounds, respWeight]
    · have h1 := lst βs (v.group.order ^ 3 * (T + 2)) (fun x hx => by
        have := (R.range x hx).2
        push_cast [hT]
        exact this) i
      refine (step _ _ h1).trans ?_
      rw [← hT]
      calc v.group.order ^ 3 * (T + 2) * T ≤ v.group.order ^ 3 * (T + T) * T := by gcongr
        _ = _ := by ring
    · have h1 := lst xs N (fun x hx' => (hx x hx').le) j
      refine (step _ _ h1).trans ?_
      rw [← hT, one_mul]
    · have h1 : o.toNat ≤ κ * N := by
        have : o ≤ ((κ * N : Nat) : Int) := by push_cast; omega
        omega
      refine (step _ _ h1).trans ?_
      rw [← hT, mul_assoc]
  have key := close_of_shift_bad (respBounds v N req.num ys.length) (respShift c βs xs o) _
    (2 ^ v.params.sec.toNat) hpos small V hV _ v.group.order hVc
    (fun a => generateResponse (H a) v sk req pk cm cr (remaskResp d a))
    (fun a => .ok (resp, simResponse (encB (Ped.commitment gs h n βs o)) c a))
    (fun a ha hna _ => (run a ha (hVm a ha hna)).2)
  have hsum : (∑ i : RespMask req.num ys.length, respWeight κ i) =
      2 * req.num + ys.length + κ := by
    rw [Fintype.sum_sum_type, Fintype.sum_sum_type]
    simp [respWeight]
    ring
  rw [hsum, Fintype.card_fin, mul_one] at key
  exact key

/-- The honest request `req` and the values it encrypts. -/
theorem honest_opens (S : BbSetup gs h n N s g ys xs v sk) {pk : BbPublicKey} {bsk : BbPrivateKey}
    {ms rs : List Int} {cm om cr orr : Int} (R : BbRun gs N ys v pk bsk ms rs cm om cr orr)
    {H : Hashes} {d : ReqDraws} {req : BbRequest} {π : BbReqProof} {st : List Bytes}
    (hreq : generateRequest H v ms rs pk cm om cr orr d = .ok (req, π, st))
    (hm : ∀ i < ms.length, ¬ ms.getD i 0 + BN.ofBytes bsk.k + BN.ofBytes bsk.y * rs.getD i 0 ≡ 0
      [ZMOD v.group.order]) :
    ∃ cts β, req.num = ms.length ∧ ReqOk v gs N s ys xs req cts β ∧ 0 ≤ cm ∧ 0 ≤ cr ∧
      (∀ i < req.num, ¬ (v.group.order : Int) ∣ β i) := by
  have M := S.made
  have hq := M.order
  obtain ⟨req', π₁, st', w, cts, k, y, hk, hy, hw, hst, hnum, henc, hgen, -, hcm, hcr⟩ :=
    bb_run S R H d
  rw [hreq] at hgen
  split at hgen
  swap
  · cases hgen
  rename_i hu
  cases hgen
  refine ⟨cts, _, hnum, henc hu, hcm, hcr, ?_⟩
  intro i hi hdv
  rw [hnum] at hi
  have hb := M.beta_secret (om := om) (orr := orr) R.sizes.1 d ys.length k y hi
  rw [← hw] at hb
  have h1 : (v.group.order : Int) ∣ aOf v (d.a i) * (ms.getD i 0 + k + y * rs.getD i 0) :=
    Int.modEq_zero_iff_dvd.1 (hb.symm.trans (Int.modEq_zero_iff_dvd.2 hdv))
  rcases (Nat.prime_iff_prime_int.1 M.lawful.prime).dvd_or_dvd h1 with h2 | h2
  · exact M.aOf_ndvd _ h2
  · apply hm i hi
    rw [← hk, ← hy]
    exact Int.modEq_zero_iff_dvd.2 h2

/-- **C101**: requests of the honest protocol meet the hypothesis `Opens`, unless
`m + k + y r` vanishes modulo the order of the group for one of the messages. -/
theorem C101_honest (S : BbSetup gs h n N s g ys xs v sk) (pk : BbPublicKey) (bsk : BbPrivateKey)
    (ms rs : List Int) (cm om cr orr : Int) (R : BbRun gs N ys v pk bsk ms rs cm om cr orr)
    (H : Hashes) (d : ReqDraws) (req : BbRequest) (π : BbReqProof) (st : List Bytes)
    (hreq : generateRequest H v ms rs pk cm om cr orr d = .ok (req, π, st))
    (hm : ∀ i < ms.length, ¬ ms.getD i 0 + BN.ofBytes bsk.k + BN.ofBytes bsk.y * rs.getD i 0 ≡ 0
      [ZMOD v.group.order]) :
    ∃ βs, Opens v sk req βs := by
  obtain ⟨cts, β, -, RO, -, -, hu⟩ := honest_opens S R hreq hm
  exact ⟨_, S.made.opens S.priv RO hu⟩

/-- **C101**: a simulated response proof for an honest request, with responses below the bounds of
the masks, is accepted when the hash function answers the challenge it was made for, unless the
verifier meets the point at infinity; `m1` is the first message that `VerifyResponse`
recomputes. -/
theorem C101_accepted (S : BbSetup gs h n N s g ys xs v sk) (pk : BbPublicKey) (bsk : BbPrivateKey)
    (ms rs : List Int) (cm om cr orr : Int) (R : BbRun gs N ys v pk bsk ms rs cm om cr orr)
    (H₁ H₂ : Hashes) (d : ReqDraws) (req : BbRequest) (π : BbReqProof) (st : List Bytes)
    (hreq : generateRequest H₁ v ms rs pk cm om cr orr d = .ok (req, π, st)) (d' : RespDraws)
    (resp : List Bytes) (π₀ : BbRespProof)
    (hresp : generateResponse H₂ v sk req pk cm cr d' = .ok (resp, π₀))
    (c : Nat) (a : RespMask req.num ys.length → Nat)
    (ha : a ∈ Box (respBounds v N req.num ys.length)) (σs : List G)
    (hσ : parseECPointVectorProto v.group resp = .ok σs)
    (hinf : ∀ i : Fin req.num, a (.inl i) • σs.getD i 0 ≠ c • v.base) :
    ∃ m1 : BbRespMessage1, ∀ H : Hashes,
      responseChallenge H v pk cm cr req resp (BN.ofBytes π₀.commitBetas) m1 = .ok (c : Int) →
      verifyResponse H v pk resp (simResponse π₀.commitBetas c a) req cm cr = .ok () := by
  have M := S.made
  have hn := M.n0
  have hm : ∀ i < ms.length, ¬ ms.getD i 0 + BN.ofBytes bsk.k + BN.ofBytes bsk.y * rs.getD i 0 ≡ 0
      [ZMOD v.group.order] := by
    rcases C62_response gs h n N s g ys xs v sk S pk bsk ms rs cm om cr orr R H₁ H₂ d req π st hreq
      d' with ⟨h1, -⟩ | ⟨h1, -⟩
    · rw [hresp] at h1; cases h1
    · exact h1
  obtain ⟨cts, β, -, RO, hcm, hcr, hu⟩ := honest_opens S R hreq hm
  obtain ⟨resp', hr, form⟩ := M.response_closed S.priv (M.opens S.priv RO hu) pk hcm hcr
  obtain ⟨c₀, -, -, e₀⟩ := (form d' H₂).2 ((form d' H₂).1 _ hresp)
  rw [hresp] at e₀
  simp only [Res.ok.injEq, Prod.mk.injEq] at e₀
  obtain ⟨rfl, rfl⟩ := e₀
  rw [List.map_map] at hr
  have hcb0 : 0 ≤ Ped.commitment gs h n ((List.range req.num).map β) ((d'.openBetas : Int) % n) :=
    Ped.commitment_nonneg hn _ _
  have hs0 : ∀ P ∈ (List.range req.num).map (sigP v ∘ β), P ≠ 0 := by
    intro P hP
    obtain ⟨i, hi, rfl⟩ := List.mem_map.1 hP
    exact M.sigP_ne (hu i (by simpa using hi))
  obtain ⟨_, hr1, hr2⟩ := ecPoints_round M.lawful hs0
  rw [hr] at hr1
  cases hr1
  rw [hσ] at hr2
  cases hr2
  obtain ⟨m1, hm1⟩ := M.simulated_response RO hu hr hcb0
    (Ped.commitment_unit M.gsU M.hU _ _) c a ha (by
      intro i
      have := hinf i
      rw [getD_map_range _ _ i.2] at this
      exact this)
  refine ⟨m1, fun H hch => hm1 H pk cm cr ?_⟩
  simp only [ofBytes_encB hcb0] at hch
  exact hch

/-! ### The opening of the commitment is not hidden -/

/-- **C101**: what every response proof reveals.  The opening `o` of the commitment in the proof
lies in an interval of length `N * 2 ^ (challenge + security) / c` that can be computed from the
proof alone, however large the modulus `n` below which it was drawn. -/
theorem C101_opening_interval (S : BbSetup gs h n N s g ys xs v sk) (pk : BbPublicKey) (cm cr : Int)
    (hcm : 0 ≤ cm) (hcr : 0 ≤ cr) (req : BbRequest) (βs : List Int) (R : Opens v sk req βs)
    (H : Hashes) (d : RespDraws) (resp : List Bytes) (π : BbRespProof)
    (hgen : generateResponse H v sk req pk cm cr d = .ok (resp, π)) :
    BN.ofBytes π.commitBetas = Ped.commitment gs h n βs ((d.openBetas : Int) % n) ∧
    BN.ofBytes π.challenge * ((d.openBetas : Int) % n) ≤ BN.ofBytes π.opening ∧
    BN.ofBytes π.opening < BN.ofBytes π.challenge * ((d.openBetas : Int) % n) +
      N * 2 ^ (v.params.chal + v.params.sec).toNat := by
  have M := S.made
  have hn := M.n0
  have hX : 0 < (N : Int) * 2 ^ tBits v := by
    have := M.N1
    have : (0 : Int) < N := by omega
    positivity
  obtain ⟨resp', -, form⟩ := M.response_closed S.priv R pk hcm hcr
  obtain ⟨c, -, -, e⟩ := (form d H).2 ((form d H).1 _ hgen)
  rw [hgen] at e
  simp only [Res.ok.injEq, Prod.mk.injEq] at e
  obtain ⟨-, rfl⟩ := e
  have h0 : 0 ≤ (d.openBetas : Int) % n := Int.emod_nonneg _ hn.ne'
  have h1 : 0 ≤ (d.opening : Int) % ((N : Int) * 2 ^ tBits v) := Int.emod_nonneg _ hX.ne'
  have h2 := Int.emod_lt_of_pos (d.opening : Int) hX
  have h3 : 0 ≤ (c : Int) * ((d.openBetas : Int) % n) := mul_nonneg (by omega) h0
  simp only [ofBytes_encB (add_nonneg h1 h3), ofBytes_encB (show (0 : Int) ≤ (c : Int) by omega),
    ofBytes_encB (Ped.commitment_nonneg hn βs ((d.openBetas : Int) % n))]
  change _ ∧ _ ∧ _ < _ + (N : Int) * 2 ^ tBits v
  refine ⟨trivial, by omega, by omega⟩

/-- **C101** fails without a bound on the modulus of the commitments.  If for two draws (of which
everything public may be equal) the openings differ by at least
`N * 2 ^ (challenge + security) / c`, then no simulator at all is within statistical distance 1/4 of
both experiments, although the masks are drawn afresh as above. -/
theorem C101_opening_fails (S : BbSetup gs h n N s g ys xs v sk) (pk : BbPublicKey) (cm cr : Int)
    (hcm : 0 ≤ cm) (hcr : 0 ≤ cr) (req : BbRequest) (βs : List Int) (R : Opens v sk req βs)
    (hL : 2 * req.num < v.group.order) (d₁ d₂ : RespDraws) (c : Nat)
    (H : (RespMask req.num ys.length → Nat) → Hashes)
    (hc : ∀ a ∈ Box (respBounds v N req.num ys.length), ∀ d resp' π, d = d₁ ∨ d = d₂ →
      generateResponse (H a) v sk req pk cm cr (remaskResp d a) = .ok (resp', π) →
      BN.ofBytes π.challenge = c)
    (hsep : c * ((d₁.openBetas : Int) % n) + N * 2 ^ (v.params.chal + v.params.sec).toNat ≤
      c * ((d₂.openBetas : Int) % n))
    (sim : (RespMask req.num ys.length → Nat) → Res (List Bytes × BbRespProof)) :
    ¬ (StatClose (Box (respBounds v N req.num ys.length))
        (fun a => generateResponse (H a) v sk req pk cm cr (remaskResp d₁ a)) sim 1 4 ∧
      StatClose (Box (respBounds v N req.num ys.length))
        (fun a => generateResponse (H a) v sk req pk cm cr (remaskResp d₂ a)) sim 1 4) := by
  classical
  rintro ⟨h1, h2⟩
  have M := S.made
  have hq := M.order
  have hqN : 0 < v.group.order := by omega
  have hT : 0 < 2 ^ (v.params.chal + v.params.sec).toNat := by positivity
  have hpos : ∀ i, 0 < respBounds v N req.num ys.length i := by
    have h3 : 0 < N := by have := M.N1; omega
    intro i
    rcases i with i | j <;> simp only [respBounds] <;> positivity
  have hbad : ∀ j : Fin req.num, ((Finset.range (respBounds v N req.num ys.length (.inl j))).filter
      fun x => v.group.order ∣ x).card * v.group.order ≤
      1 * respBounds v N req.num ys.length (.inl j) := by
    intro j
    simp only [respBounds]
    rw [card_dvd hqN]
    apply le_of_eq
    ring
  obtain ⟨V, hV, hVm, hVc⟩ := exists_bad (respBounds v N req.num ys.length)
    (fun j : Fin req.num => .inl j) (fun _ (x : Nat) => v.group.order ∣ x) hpos 1
    v.group.order hbad
  rw [Fintype.card_fin, mul_one] at hVc
  set B := Box (respBounds v N req.num ys.length) with hB
  have hBpos : 0 < B.card := Finset.card_pos.2 ⟨fun _ => 0, mem_box.2 hpos⟩
  let E : Res (List Bytes × BbRespProof) → Prop := fun x => ∃ resp π, x = .ok (resp, π) ∧
    BN.ofBytes π.opening < c * ((d₁.openBetas : Int) % n) +
      N * 2 ^ (v.params.chal + v.params.sec).toNat
  have e1 := h1 E
  have e2 := h2 E
  -- the first experiment is in `E` unless the generator fails
  have n1 : B.card ≤ (B.filter fun a => E (generateResponse (H a) v sk req pk cm cr
      (remaskResp d₁ a))).card + V.card := by
    have hsub : B \ V ⊆ B.filter fun a => E (generateResponse (H a) v sk req pk cm cr
        (remaskResp d₁ a)) := by
      intro a ha
      rw [Finset.mem_sdiff] at ha
      have hm := mem_box.1 ha.1
      refine Finset.mem_filter.2 ⟨ha.1, ?_⟩
      obtain ⟨resp', -, form⟩ := M.response_closed S.priv R pk hcm hcr
      obtain ⟨c', -, -, e⟩ := (form (remaskResp d₁ a) (H a)).2 (by
        intro i hi
        have e1 : (remaskResp d₁ a).betas i = a (.inl ⟨i, hi⟩) := by
          simp only [remaskResp, drawFn, hi, dif_pos]
        have eB : dBetaB v = (respBounds v N req.num ys.length (.inl ⟨i, hi⟩) : Int) := by
          unfold dBetaB tBits
          simp only [respBounds]
          push_cast
          rw [two_mul, pow_add]; ring
        rw [e1, eB, Int.emod_eq_of_lt (by omega) (by exact_mod_cast hm (.inl ⟨i, hi⟩))]
        intro hdv
        exact hVm a ha.1 ha.2 ⟨i, hi⟩ (by exact_mod_cast hdv))
      refine ⟨_, _, e, ?_⟩
      have k1 := (C101_opening_interval S pk cm cr hcm hcr req βs R _ _ _ _ e).2.2
      rw [hc a ha.1 d₁ _ _ (.inl rfl) e] at k1
      exact k1
    have := Finset.card_le_card hsub
    rw [Finset.card_sdiff_of_subset hV] at this
    have := Finset.card_le_card hV
    omega
  -- the second never
  have n2 : (B.filter fun a => E (generateResponse (H a) v sk req pk cm cr
      (remaskResp d₂ a))).card = 0 := by
    rw [Finset.card_eq_zero, Finset.filter_eq_empty_iff]
    rintro a ha ⟨resp, π, e, hlt⟩
    have k1 := (C101_opening_interval S pk cm cr hcm hcr req βs R _ _ _ _ e).2.1
    rw [hc a ha d₂ _ _ (.inr rfl) e] at k1
    change (c : Int) * ((d₂.openBetas : Int) % n) ≤ _ at k1
    omega
  have hV2 : 2 * V.card < B.card := by
    by_contra hcon
    have k1 : B.card * v.group.order ≤ 2 * (V.card * v.group.order) := by
      calc B.card * v.group.order ≤ 2 * V.card * v.group.order := Nat.mul_le_mul_right _ (by omega)
        _ = _ := by ring
    have k2 : 2 * (V.card * v.group.order) ≤ 2 * req.num * B.card := by
      calc _ ≤ 2 * (req.num * B.card) := Nat.mul_le_mul_left _ hVc
        _ = _ := by ring
    have k3 : 2 * req.num * B.card < v.group.order * B.card := Nat.mul_lt_mul_of_pos_right hL hBpos
    have k4 := Nat.mul_comm B.card v.group.order
    omega
  have a1 := le_abs_self (((B.filter fun a => E (generateResponse (H a) v sk req pk cm cr
      (remaskResp d₁ a))).card : Int) - (B.filter fun a => E (sim a)).card)
  have a2 := neg_abs_le (((B.filter fun a => E (generateResponse (H a) v sk req pk cm cr
      (remaskResp d₂ a))).card : Int) - (B.filter fun a => E (sim a)).card)
  rw [n2] at e2 a2
  push_cast at e1 e2
  have n1' : (B.card : Int) ≤ (B.filter fun a => E (generateResponse (H a) v sk req pk cm cr
      (remaskResp d₁ a))).card + V.card := by exact_mod_cast n1
  have hV2' : 2 * (V.card : Int) < B.card := by exact_mod_cast hV2
  simp only [Nat.cast_zero] at a2
  linarith

/-! ### The hypotheses are met -/

/-- With a hash function that ignores its input, every challenge is the same. -/
theorem response_met (S : BbSetup gs h n N s g ys xs v sk) (pk : BbPublicKey) (cm cr : Int)
    (hcm : 0 ≤ cm) (hcr : 0 ≤ cr) (req : BbRequest) (βs : List Int) (R : Opens v sk req βs)
    (k : Bytes) : ∃ c : Nat,
      Ctx.randomOracleSha512 (Ped.fixedHash k) [] (2 ^ v.params.chal.toNat) = .ok (c : Int) ∧
      ∀ d resp π, generateResponse (Ped.fixedHash k) v sk req pk cm cr d = .ok (resp, π) →
        BN.ofBytes π.challenge = c := by
  have M := S.made
  have hb := M.chal
  obtain ⟨c, hc, h0, -⟩ := Ped.oracle_ok (Ped.fixedHash k) [] (len := v.params.chal.toNat) (by omega)
  obtain ⟨c, rfl⟩ := Int.eq_ofNat_of_zero_le h0
  refine ⟨c, hc, fun d resp π e => ?_⟩
  obtain ⟨resp', -, form⟩ := M.response_closed S.priv R pk hcm hcr
  obtain ⟨c', ⟨cb, m1, hcb, hc'⟩, -, e'⟩ := (form d _).2 ((form d _).1 _ e)
  rw [e] at e'
  simp only [Res.ok.injEq, Prod.mk.injEq] at e'
  obtain ⟨-, rfl⟩ := e'
  unfold responseChallenge at hc'
  rw [M.chalBound, Res.ok_bind, toBytes_encB hcm, Res.ok_bind, toBytes_encB hcr, Res.ok_bind,
    toBytes_encB hcb, Res.ok_bind, Ped.oracle_fixed k _ [], hc] at hc'
  cases hc'
  exact ofBytes_encB (by omega)

/-- Two responses of the toy instance, with openings 7 and 7207 of the same commitment. -/
def toyLeak (H : Hashes) : Res Bool := do
  let ped ← Ped.create toyBbGs 7 46189 2
  let cs ← Cs.newPublic ⟨false, 3⟩ 221 2 3 toyBbYs
  let sk ← Cs.newPrivate ⟨true, 2⟩ 221 2 3 toyBbYs toyBbXs
  let v ← create toyBbParams toyEc cs ped
  let (pk, bsk) ← generateKeys v 4 6 (fun i => 2 + i) (fun i => 4 + i)
  let cm ← Ped.commitWithRand ped [1, 2, 10] 55
  let cr ← Ped.commitWithRand ped [3, 0, 9] 66
  let (req, _, _) ← generateRequest H v [1, 2, 10] [3, 0, 9] pk cm 55 cr 66 toyReqDraws
  let (resp, π₁) ← generateResponse H v sk req pk cm cr toyRespDraws
  let (resp', π₂) ← generateResponse H v sk req pk cm cr { toyRespDraws with openBetas := 7207 }
  return decide (resp = resp' ∧ π₁.commitBetas = π₂.commitBetas)

/-- **C101** fails: in the toy instance two draws with the same response and the same commitment are
told apart by their proofs, so that no simulator that sees only public values can exist. -/
theorem C101_opening_leak_toy_fails : ∃ (v : BbSig (ZMod 11)) (sk : CsPrivate) (pk : BbPublicKey)
    (bsk : BbPrivateKey) (cm cr : Int) (H : Hashes) (req : BbRequest) (π : BbReqProof)
    (st : List Bytes) (d₁ d₂ : RespDraws) (resp : List Bytes) (π₁ π₂ : BbRespProof),
    BbSetup toyBbGs 7 46189 221 2 3 toyBbYs toyBbXs v sk ∧
    BbRun toyBbGs 221 toyBbYs v pk bsk [1, 2, 10] [3, 0, 9] cm 55 cr 66 ∧
    generateRequest H v [1, 2, 10] [3, 0, 9] pk cm 55 cr 66 toyReqDraws = .ok (req, π, st) ∧
    generateResponse H v sk req pk cm cr d₁ = .ok (resp, π₁) ∧
    generateResponse H v sk req pk cm cr d₂ = .ok (resp, π₂) ∧
    π₁.commitBetas = π₂.commitBetas ∧
    ∀ sim, ¬ (StatClose (Box (respBounds v 221 req.num 2))
        (fun a => generateResponse H v sk req pk cm cr (remaskResp d₁ a)) sim 1 4 ∧
      StatClose (Box (respBounds v 221 req.num 2))
        (fun a => generateResponse H v sk req pk cm cr (remaskResp d₂ a)) sim 1 4) := by
  have h : toyLeak (Ped.fixedHash (255 :: List.replicate 63 1)) = .ok true := by decide +kernel
  unfold toyLeak at h
  simp only [Res.bind_eq_ok, Res.pure_eq, Res.ok.injEq, decide_eq_true_eq] at h
  obtain ⟨ped, hped, cs, hcs, sk, hsk, v, hv, ⟨pk, bsk⟩, hk, cm, hcm, cr, hcr, ⟨req, π, st⟩, hreq,
    ⟨resp, π₁⟩, hr1, ⟨_, π₂⟩, hr2, rfl, hcb⟩ := h
  obtain ⟨S, R⟩ := toyBb_hyps hped hcs hsk hv hk hcm hcr
  refine ⟨v, sk, pk, bsk, cm, cr, _, req, π, st, _, _, resp, π₁, π₂, S, R, hreq, hr1, hr2, hcb, ?_⟩
  intro sim
  have hm := (C62_response _ _ _ _ _ _ _ _ v sk S pk bsk _ _ cm 55 cr 66 R _
    (Ped.fixedHash (255 :: List.replicate 63 1)) _ req π st hreq toyRespDraws)
  have hm' : ∀ i < [(1 : Int), 2, 10].length, ¬ [(1 : Int), 2, 10].getD i 0 + BN.ofBytes bsk.k +
      BN.ofBytes bsk.y * [(3 : Int), 0, 9].getD i 0 ≡ 0 [ZMOD v.group.order] := by
    rcases hm with ⟨h1, -⟩ | ⟨h1, -⟩
    · rw [hr1] at h1; cases h1
    · exact h1
  obtain ⟨cts, β, hnum, RO, hcm0, hcr0, hu⟩ := honest_opens S R hreq hm'
  have O := S.made.opens S.priv RO hu
  obtain ⟨e1, e2, -, -⟩ := create_eq_ok hv
  obtain ⟨c, hc, hmet⟩ := response_met S pk cm cr hcm0 hcr0 req _ O (255 :: List.replicate 63 1)
  have hc1 : c = 1 := by
    rw [e1] at hc
    have h1 : Ctx.randomOracleSha512 (Ped.fixedHash (255 :: List.replicate 63 1)) []
      (2 ^ toyBbParams.chal.toNat) = .ok 1 := by decide +kernel
    rw [h1] at hc
    simp only [Res.ok.injEq] at hc
    omega
  refine C101_opening_fails S pk cm cr hcm0 hcr0 req _ O ?_ _ _ c _ ?_ ?_ sim
  · rw [hnum, e2]; decide
  · intro a _ d resp' π' _ e
    exact hmet _ _ _ e
  · rw [hc1, e1]; decide

/-- The hypotheses of `C101_response_partial` hold in the toy instance, with `κ = 209`. -/
example : ∃ (v : BbSig (ZMod 11)) (sk : CsPrivate) (pk : BbPublicKey) (cm cr : Int) (req : BbRequest)
    (βs : List Int) (H₀ : Hashes) (resp : List Bytes) (π₀ : BbRespProof) (c : Nat) (H : Hashes),
    BbSetup toyBbGs 7 46189 221 2 3 toyBbYs toyBbXs v sk ∧ (∀ x ∈ toyBbXs, x < (221 : Nat)) ∧
    (46189 : Int) ≤ (209 : Nat) * (221 : Nat) ∧ 0 ≤ cm ∧ 0 ≤ cr ∧ Opens v sk req βs ∧
    βs.length = 3 ∧ generateResponse H₀ v sk req pk cm cr toyRespDraws = .ok (resp, π₀) ∧
    ∀ d resp' π, generateResponse H v sk req pk cm cr d = .ok (resp', π) →
      BN.ofBytes π.challenge = c := by
  obtain ⟨v, sk, pk, bsk, cm, cr, H₀, req, π, st, resp, π', S, R, hreq, -, hresp, -⟩ := toyBb
  have hm := C62_response _ _ _ _ _ _ _ _ v sk S pk bsk _ _ cm 55 cr 66 R _ H₀ _ req π st hreq
    toyRespDraws
  have hm' : ∀ i < [(1 : Int), 2, 10].length, ¬ [(1 : Int), 2, 10].getD i 0 + BN.ofBytes bsk.k +
      BN.ofBytes bsk.y * [(3 : Int), 0, 9].getD i 0 ≡ 0 [ZMOD v.group.order] := by
    rcases hm with ⟨h1, -⟩ | ⟨h1, -⟩
    · rw [hresp] at h1; cases h1
    · exact h1
  obtain ⟨cts, β, hnum, RO, hcm0, hcr0, hu⟩ := honest_opens S R hreq hm'
  have O := S.made.opens S.priv RO hu
  obtain ⟨c, -, hmet⟩ := response_met S pk cm cr hcm0 hcr0 req _ O []
  exact ⟨v, sk, pk, cm, cr, req, _, H₀, resp, π', c, Ped.fixedHash [], S, by decide, by decide,
    hcm0, hcr0, O, by simp [hnum], hresp, hmet⟩

end PJC.Props
