import Verif.Lemmas.BbSafety
set_option linter.unusedSectionVars false
/-!
What acceptance of an oblivious-signature response proof means.
-/

namespace PJC.Bb
open Res PJC.DJ PJC.Ped PJC.Props

/-- Entry `i` of a list of encoded numbers (0 beyond its end). -/
def numAt (l : List Bytes) (i : Nat) : Int := BN.ofBytes (l.getD i [])

theorem numAt_nonneg (l : List Bytes) (i : Nat) : 0 ≤ numAt l i := BN.ofBytes_nonneg _

theorem parse_getD {l : List Bytes} {i : Nat} (hi : i < l.length) :
    (parseBigNumVectorProto l).getD i 0 = numAt l i := by
  unfold parseBigNumVectorProto numAt
  simp [List.getD_eq_getElem?_getD, hi]

theorem numAt_vecB {l : List Int} {i : Nat} (h : ∀ x ∈ l, 0 ≤ x) (hi : i < l.length) :
    numAt (vecB l) i = l.getD i 0 := by
  unfold numAt vecB
  simp only [List.getD_eq_getElem?_getD, List.getElem?_map, List.getElem?_eq_getElem hi,
    Option.map_some, Option.getD_some]
  exact ofBytes_encB (h _ (List.getElem_mem hi))

theorem idx_inv {α : Type} {l : List α} {i : Nat} {a : α} (h : idx l i = .ok a) (d : α) :
    i < l.length ∧ a = l.getD i d := by
  unfold idx at h
  cases e : l[i]? with
  | none => rw [e] at h; cases h
  | some b =>
    rw [e] at h
    cases h
    obtain ⟨hi, he⟩ := List.getElem?_eq_some_iff.1 e
    exact ⟨hi, by simp [List.getD_eq_getElem?_getD, e]⟩

/-- A division by a power modulo `m` that succeeded. -/
theorem quot_sound {m V c M D i p : Int} (hm : 0 < m) (hc : 0 ≤ c) (hp : BN.modExp V c m = .ok p)
    (hi : BN.modInverse p m = .ok i) (hD : BN.modMul M i m = .ok D) :
    0 ≤ D ∧ M ≡ D * V ^ c.toNat [ZMOD m] := by
  rw [modExp_ok hc hm.ne'] at hp
  cases hp
  rw [modMul_ok hm.ne'] at hD
  cases hD
  exact ⟨Int.emod_nonneg _ hm.ne', recover_sound hi (by rw [mul_comm])⟩

theorem unmask_sound {ped : Pedersen} {n : Int} (hn : ped.n = n) (h0 : 0 < n) {c M V D : Int}
    (hc : 0 ≤ c) (h : unmask ped c M V = .ok D) : 0 ≤ D ∧ M ≡ D * V ^ c.toNat [ZMOD n] := by
  unfold unmask Ped.multiply Ped.add at h
  rw [hn] at h
  simp only [Res.bind_eq_ok] at h
  obtain ⟨p, hp, i, hi, hD⟩ := h
  exact quot_sound h0 hc hp hi hD

/-- A successful `mapM` over a range. -/
theorem mapM_range_ok {β : Type} {f : Nat → Res β} {k : Nat} {r : List β}
    (h : (List.range k).mapM f = .ok r) (d : β) :
    r.length = k ∧ ∀ i < k, f i = .ok (r.getD i d) := by
  have h1 := Cs.mapM_ok_iff.1 h
  have hl : r.length = k := by simpa using h1.length_eq.symm
  refine ⟨hl, fun i hi => ?_⟩
  have := (List.forall₂_iff_get.1 h1).2 i (by simpa using hi) (by omega)
  simp only [List.get_eq_getElem, List.getElem_range] at this
  rw [this, List.getD_eq_getElem _ _ (by omega)]

theorem mapM_list_ok {α β : Type} {f : α → Res β} {l : List α} {r : List β}
    (h : l.mapM f = .ok r) (a : α) (d : β) :
    r.length = l.length ∧ ∀ i < l.length, f (l.getD i a) = .ok (r.getD i d) := by
  have h1 := Cs.mapM_ok_iff.1 h
  have hl : r.length = l.length := h1.length_eq.symm
  refine ⟨hl, fun i hi => ?_⟩
  have := (List.forall₂_iff_get.1 h1).2 i hi (by omega)
  simp only [List.get_eq_getElem] at this
  rw [List.getD_eq_getElem _ _ hi, this, List.getD_eq_getElem _ _ (by omega)]

theorem toProto_eq_ok {l : List Int} (h0 : ∀ x ∈ l, 0 ≤ x) {bs : List Bytes}
    (h : bigNumVectorToProto l = .ok bs) : bs = vecB l := by
  rw [toProto_vecB h0] at h
  cases h
  rfl

variable {G : Type} [AddCommGroup G] [DecidableEq G]
variable {gs : List Int} {h n : Int} {N s : Nat} {g : Int} {ys xs : List Int} {v : BbSig G}

/-- What an accepted response proof `p` for the response `resp` to the request `req` establishes,
relative to the first message `m` of the proof.  With `c` the challenge, `x`, `b`, `o` the masked
values in the proof, `u_i`, `e_ij` the ciphertexts of the request and `L` the number of slots:
* there is one signature and one masked `b` per message, one masked `x` per slot;
* every masked `b` is below `2^(2 (challenge + security) + 1) q^3`;
* `b_i σ_i = D_i + c base` for the points `D_i` of the first message;
* `g^x_l = Y_l y_l^c` modulo `N^(s+1)`;
* `(1 + N)^b_(iL+j) u_i^x_j = E_ij e_ij^c` modulo `N^(s+1)`;
* the commitment to all `b` with opening `o` is `C D_c^c`;
* the challenge is the hash of the statement and this first message. -/
structure RespAccepted (H : Hashes) (gs : List Int) (h n : Int) (N s : Nat) (g : Int)
    (ys : List Int) (v : BbSig G) (pk : BbPublicKey) (resp : List Bytes) (p : BbRespProof)
    (req : BbRequest) (cm cr : Int) (m : BbRespMessage1) : Prop where
  respLen : resp.length = req.num
  xsLen : p.xs.length = ys.length
  betasLen : p.betas.length = req.num
  range : ∀ i < req.num, numAt p.betas i <
    2 ^ (2 * (v.params.chal + v.params.sec) + 1).toNat * (v.group.order : Int) ^ 3
  points : ∀ i < req.num, ∃ σ D : G, v.group.createECPoint (resp.getD i []) = .ok σ ∧
    v.group.createECPoint (m.baseGs.getD i []) = .ok D ∧
    numAt p.betas i • σ = D + BN.ofBytes p.challenge • v.base
  keys : ∀ l < ys.length, g ^ (numAt p.xs l).toNat ≡
    numAt m.ys l * ys.getD l 0 ^ (BN.ofBytes p.challenge).toNat [ZMOD (N : Int) ^ (s + 1)]
  cts : ∀ i < req.cts.length, ∀ j < ys.length, i * ys.length + j < req.num →
    (1 + (N : Int)) ^ (numAt p.betas (i * ys.length + j)).toNat *
        BN.ofBytes (req.cts.getD i ⟨[], []⟩).u ^ (numAt p.xs j).toNat ≡
      numAt (m.es.getD i []) j *
        numAt (req.cts.getD i ⟨[], []⟩).es j ^ (BN.ofBytes p.challenge).toNat
      [ZMOD (N : Int) ^ (s + 1)]
  commit : Ped.commitment gs h n (p.betas.map BN.ofBytes) (BN.ofBytes p.opening) ≡
    BN.ofBytes m.commitBetas * BN.ofBytes p.commitBetas ^ (BN.ofBytes p.challenge).toNat [ZMOD n]
  challenge : responseChallenge H v pk cm cr req resp (BN.ofBytes p.commitBetas) m =
    .ok (BN.ofBytes p.challenge)

theorem parseCt_eq {pk : CsPublic} {p : CsCtProto} {c : CsCt}
    (h : Cs.parseCiphertextProto pk p = .ok c) :
    c.u = BN.ofBytes p.u ∧ c.es = parseBigNumVectorProto p.es := by
  unfold Cs.parseCiphertextProto at h
  dsimp only at h
  split at h
  · cases h
  split at h
  · cases h
  split at h
  · cases h
  cases h
  exact ⟨rfl, rfl⟩

theorem Made.recomputeE_sound (M : Made gs h n N s g ys v) {c : Int} (hc : 0 ≤ c) {ct : CsCt}
    {xs es : List Int} (hx : ∀ x ∈ xs, 0 ≤ x) {j : Nat} {D : Int}
    (hr : recomputeE v c ct xs es j = .ok D) :
    0 ≤ D ∧ j < ct.es.length ∧ es.getD j 0 * ct.u ^ (xs.getD j 0).toNat ≡
      D * ct.es.getD j 0 ^ c.toNat [ZMOD (N : Int) ^ (s + 1)] := by
  obtain ⟨cfg, P⟩ := M.pub
  have hM := modulus_pos P
  unfold recomputeE at hr
  rw [P.hmod] at hr
  simp only [Res.bind_eq_ok] at hr
  obtain ⟨e, he, x, hx', ux, hux, mk, hmk, val, hval, pw, hpw, iv, hiv, hD⟩ := hr
  obtain ⟨_, rfl⟩ := idx_inv he 0
  obtain ⟨_, rfl⟩ := idx_inv hx' 0
  obtain ⟨hj, rfl⟩ := idx_inv hval 0
  rw [modExp_ok (getD_nonneg hx j) hM.ne'] at hux
  cases hux
  rw [modMul_ok hM.ne'] at hmk
  cases hmk
  obtain ⟨h0, h1⟩ := quot_sound hM hc hpw hiv hD
  exact ⟨h0, hj, ((Int.mod_modEq _ _).trans ((Int.ModEq.refl _).mul (Int.mod_modEq _ _))).symm.trans
    h1⟩

theorem Made.recomputeY_sound (M : Made gs h n N s g ys v) {c : Int} (hc : 0 ≤ c)
    {xs : List Int} (hx : ∀ x ∈ xs, 0 ≤ x) {l : Nat} {D : Int}
    (hr : recomputeY v c xs l = .ok D) :
    0 ≤ D ∧ g ^ (xs.getD l 0).toNat ≡ D * ys.getD l 0 ^ c.toNat [ZMOD (N : Int) ^ (s + 1)] := by
  obtain ⟨cfg, P⟩ := M.pub
  have hM := modulus_pos P
  unfold recomputeY at hr
  rw [P.hmod, P.hg, P.hys] at hr
  simp only [Res.bind_eq_ok] at hr
  obtain ⟨x, hx', ux, hux, val, hval, pw, hpw, iv, hiv, hD⟩ := hr
  obtain ⟨_, rfl⟩ := idx_inv hx' 0
  obtain ⟨hj, rfl⟩ := idx_inv hval 0
  rw [modExp_ok (getD_nonneg hx l) hM.ne'] at hux
  cases hux
  obtain ⟨h0, h1⟩ := quot_sound hM hc hpw hiv hD
  exact ⟨h0, (Int.mod_modEq _ _).symm.trans h1⟩

/-- The first message that verification recomputes (bb_oblivious_signature.cc:1293-1481, without the
checks and the hash). -/
def respFirst (v : BbSig G) (resp : List Bytes) (p : BbRespProof) (req : BbRequest) :
    Res BbRespMessage1 := do
  let cts ← req.cts.mapM (Cs.parseCiphertextProto v.cs)
  let sigs ← parseECPointVectorProto v.group resp
  let c := BN.ofBytes p.challenge
  let xs := parseBigNumVectorProto p.xs
  let betas := parseBigNumVectorProto p.betas
  let m1Gs ← ecPointVectorToProto v.group
    (List.zipWith (fun (s : G) (b : BigNum) => b • s + -(c • v.base)) sigs betas)
  let m1Es ← (List.range req.cts.length).mapM (recomputeEs v c req.num cts betas xs)
  let masked ← Ped.commitWithRand v.ped betas (BN.ofBytes p.opening)
  let dCommit ← unmask v.ped c masked (BN.ofBytes p.commitBetas)
  let m1Commit ← BN.toBytes dCommit
  let dYs ← (List.range v.cs.len).mapM (recomputeY v c xs)
  let m1Ys ← bigNumVectorToProto dYs
  return ⟨m1Ys, m1Commit, m1Gs, m1Es⟩

/-- Acceptance of a response proof. -/
theorem Made.response_accepted (M : Made gs h n N s g ys v) {H : Hashes} {pk : BbPublicKey}
    {resp : List Bytes} {p : BbRespProof} {req : BbRequest} {cm cr : Int}
    (hshape : req.cts.length = numCts req.num ys.length)
    (hv : verifyResponse H v pk resp p req cm cr = .ok ()) :
    ∃ m, respFirst v resp p req = .ok m ∧
      RespAccepted H gs h n N s g ys v pk resp p req cm cr m := by
  obtain ⟨cfg, P⟩ := M.pub
  have hM := modulus_pos P
  have hL := M.len0
  have hn := M.n0
  have Gd := M.good
  unfold verifyResponse at hv
  split at hv
  · cases hv
  rename_i l1
  split at hv
  · cases hv
  rename_i l2
  split at hv
  · cases hv
  rename_i l3
  push Not at l1 l2 l3
  rw [P.hlen] at l2
  simp only [Res.bind_eq_ok, M.betasBound_ok.2, Res.ok.injEq] at hv
  obtain ⟨cts, hcts, sigs, hsigs, B, rfl, hv⟩ := hv
  split at hv
  · cases hv
  rename_i hrange
  simp only [Res.bind_eq_ok] at hv
  obtain ⟨mGs, hGs, mEs, hEs, masked, hmasked, dC, hdC, mC, hmC, dYs, hdYs, mYs, hmYs, c', hc', hv⟩ :=
    hv
  split at hv
  · cases hv
  rename_i hcc
  push Not at hcc
  subst hcc
  have hfirst : respFirst v resp p req = .ok ⟨mYs, mC, mGs, mEs⟩ := by
    simp only [respFirst, hcts, hsigs, hGs, hEs, hmasked, hdC, hmC, hdYs, hmYs, Res.ok_bind,
      Res.pure_eq]
  set c := BN.ofBytes p.challenge with hcdef
  have hc0 : 0 ≤ c := BN.ofBytes_nonneg _
  have hx0 := parse_nonneg p.xs
  have hb0 := parse_nonneg p.betas
  have hbl : (parseBigNumVectorProto p.betas).length = req.num := by
    simp [parseBigNumVectorProto, l3]
  obtain ⟨lsig, hsig⟩ := mapM_list_ok hsigs [] (0 : G)
  obtain ⟨lcts, hct⟩ := mapM_list_ok hcts ⟨[], []⟩ (default : CsCt)
  obtain ⟨lY, hY⟩ := mapM_range_ok hdYs 0
  obtain ⟨lE, hE⟩ := mapM_range_ok hEs []
  rw [P.hlen] at lY hY
  have hY0 : ∀ y ∈ dYs, 0 ≤ y := by
    intro y hy
    obtain ⟨i, hi, rfl⟩ := List.mem_iff_getElem.1 hy
    have := (M.recomputeY_sound hc0 hx0 (hY i (by omega))).1
    rwa [List.getD_eq_getElem _ _ hi] at this
  have hmYs := toProto_eq_ok hY0 hmYs
  subst hmYs
  obtain ⟨hdC0, hdC1⟩ := unmask_sound Gd.n_eq hn hc0 hdC
  rw [toBytes_encB hdC0] at hmC
  cases hmC
  obtain ⟨_, hGsP⟩ := ecPoints_ok M.lawful hGs
  obtain ⟨lG, hG⟩ := mapM_list_ok hGsP [] (0 : G)
  have lz : (List.zipWith (fun (σ : G) (b : Int) => b • σ + -(c • v.base)) sigs
      (parseBigNumVectorProto p.betas)).length = req.num := by
    rw [List.length_zipWith, hbl, lsig, l1, min_self]
  refine ⟨⟨vecB dYs, encB dC, mGs, mEs⟩, hfirst, l1, l2, l3, ?_, ?_, ?_, ?_, ?_, hc'⟩
  · intro i hi
    simp only [List.any_eq_true, decide_eq_true_eq, not_exists, not_and] at hrange
    have := hrange _ (getD_mem 0 (by rw [hbl]; exact hi : i < (parseBigNumVectorProto p.betas).length))
    rw [parse_getD (by omega)] at this
    have e : dBetaB v * 2 = 2 ^ (2 * (v.params.chal + v.params.sec) + 1).toNat *
        (v.group.order : Int) ^ 3 := by
      have e1 : (2 * (v.params.chal + v.params.sec) + 1).toNat = 2 * tBits v + 1 := by
        unfold tBits
        have := M.chal0
        have := M.sec0
        omega
      rw [e1, pow_succ]
      unfold dBetaB
      ring
    rw [e] at this
    omega
  · intro i hi
    refine ⟨sigs.getD i 0, _, hsig i (by omega), hG i (by omega), ?_⟩
    have e : (List.zipWith (fun (σ : G) (b : Int) => b • σ + -(c • v.base)) sigs
        (parseBigNumVectorProto p.betas)).getD i 0 =
        numAt p.betas i • sigs.getD i 0 + -(c • v.base) := by
      rw [← parse_getD (by omega), List.getD_eq_getElem _ _ (by omega), List.getElem_zipWith,
        List.getD_eq_getElem _ _ (by omega), List.getD_eq_getElem _ _ (by omega)]
    rw [e]
    abel
  · intro l hl
    obtain ⟨_, h2⟩ := M.recomputeY_sound hc0 hx0 (hY l hl)
    rw [parse_getD (by omega)] at h2
    dsimp only
    rw [numAt_vecB hY0 (by omega)]
    exact h2
  · intro i hi j hj hij
    have hi' : i < numCts req.num ys.length := by omega
    have hEi := hE i hi
    unfold recomputeEs at hEi
    have hbl' : (((parseBigNumVectorProto p.betas).drop (i * ys.length)).take
        (batchSize ys.length req.num i)).length ≤ ys.length := by
      rw [batch_length hbl]; unfold batchSize; omega
    rw [P.hlen, batch_ok hL hi', Res.ok_bind,
      encryptWithRand_ok P hbl' (drop_take_nonneg hb0 _ _) le_rfl (.inr rfl), Res.ok_bind,
      idx_ok default (by omega), Res.ok_bind, batch_length hbl] at hEi
    simp only [Res.bind_eq_ok] at hEi
    obtain ⟨es, hes, hproto⟩ := hEi
    obtain ⟨les, hes⟩ := mapM_range_ok hes 0
    have hes0 : ∀ e ∈ es, 0 ≤ e := by
      intro e he
      obtain ⟨k, hk, rfl⟩ := List.mem_iff_getElem.1 he
      have := (M.recomputeE_sound hc0 hx0 (hes k (by omega))).1
      rwa [List.getD_eq_getElem _ _ hk] at this
    have hproto := toProto_eq_ok hes0 hproto
    have hjb : j < batchSize ys.length req.num i := by unfold batchSize; omega
    obtain ⟨_, hje, h2⟩ := M.recomputeE_sound hc0 hx0 (hes j hjb)
    obtain ⟨hu, he⟩ := parseCt_eq (hct i hi)
    have hje' : j < (req.cts.getD i ⟨[], []⟩).es.length := by
      rw [he] at hje
      simpa [parseBigNumVectorProto] using hje
    rw [parse_getD (by omega), hu, he, parse_getD hje'] at h2
    dsimp only
    rw [hproto, numAt_vecB hes0 (by omega)]
    refine Int.ModEq.trans (Int.ModEq.mul_right _ ?_) h2
    simp only [encP]
    rw [getD_map_range _ _ hj, getD_drop_take hjb, parse_getD (by omega)]
    simp only [Int.toNat_zero, pow_zero, one_mul]
    exact (Int.mod_modEq _ _).symm
  · by_cases vd : Valid gs (parseBigNumVectorProto p.betas) (BN.ofBytes p.opening)
    · rw [Gd.commit vd] at hmasked
      cases hmasked
      dsimp only
      rw [ofBytes_encB hdC0]
      exact hdC1
    · rw [(Gd.refuse vd 0).1] at hmasked
      cases hmasked

/-! ### Two accepted proofs -/

/-- `1 + N` has order `N^s`: powers that agree have congruent exponents. -/
theorem Priv.pow_inj {sk : CsPrivate} (S : Priv N s g ys xs sk) (hys : ys ≠ []) {A B : Nat}
    (hAB : (1 + (N : Int)) ^ A ≡ (1 + (N : Int)) ^ B [ZMOD (N : Int) ^ (s + 1)]) :
    (A : Int) ≡ B [ZMOD (N : Int) ^ s] := by
  obtain ⟨cfg, P⟩ := S.sk
  have hl : 0 < xs.length := by rw [← S.rel.len]; exact List.length_pos_iff.2 hys
  have hrep : ∀ i < xs.length, (List.replicate xs.length ((1 + (N : Int)) ^ A)).getD i 0 =
      (1 + (N : Int)) ^ A := by
    intro i hi
    simp [List.getD_eq_getElem?_getD, hi]
  have hct : ∀ C : Nat, (1 + (N : Int)) ^ A ≡ (1 + (N : Int)) ^ C [ZMOD (N : Int) ^ (s + 1)] →
      Cs.CtOk N s xs (fun _ => (C : Int)) ⟨1, List.replicate xs.length ((1 + (N : Int)) ^ A)⟩ := by
    intro C hC
    refine ⟨isCoprime_one_left, by simp, fun i hi => ⟨C, Int.ModEq.refl _, ?_⟩⟩
    rw [hrep i hi, one_pow, mul_one]
    exact hC
  have h1 := Cs.decrypt_spec P S.rel.nonneg (hct A (Int.ModEq.refl _))
  have h2 := Cs.decrypt_spec P S.rel.nonneg (hct B hAB)
  rw [h1] at h2
  simp only [Res.ok.injEq] at h2
  have := congrArg (fun l => l.getD 0 0) h2
  rw [getD_map_range _ _ hl, getD_map_range _ _ hl] at this
  exact this

theorem modEq_cancel {m a b c : Int} (hc : Int.gcd c m = 1) (hab : a * c ≡ b * c [ZMOD m]) :
    a ≡ b [ZMOD m] := by
  apply Int.modEq_of_dvd
  have h1 := hab.dvd
  rw [← sub_mul] at h1
  exact Int.dvd_of_dvd_mul_left_of_gcd_one h1 (by rw [Int.gcd_comm]; exact hc)

/-- The value under a ciphertext is determined by two answers to different challenges. -/
theorem Priv.answers {sk : CsPrivate} (S : Priv N s g ys xs sk) (hys : ys ≠ []) {R B b b' : Nat}
    {x x' X c c' : Nat} {u e y D Y : Int} (hgU : Int.gcd g ((N : Int) ^ (s + 1)) = 1)
    (hu : u ≡ g ^ R [ZMOD (N : Int) ^ (s + 1)]) (hy : y ≡ g ^ X [ZMOD (N : Int) ^ (s + 1)])
    (he : e ≡ (1 + (N : Int)) ^ B * u ^ X [ZMOD (N : Int) ^ (s + 1)])
    (k1 : g ^ x ≡ Y * y ^ c [ZMOD (N : Int) ^ (s + 1)])
    (k2 : g ^ x' ≡ Y * y ^ c' [ZMOD (N : Int) ^ (s + 1)])
    (e1 : (1 + (N : Int)) ^ b * u ^ x ≡ D * e ^ c [ZMOD (N : Int) ^ (s + 1)])
    (e2 : (1 + (N : Int)) ^ b' * u ^ x' ≡ D * e ^ c' [ZMOD (N : Int) ^ (s + 1)]) :
    (b : Int) - b' ≡ B * ((c : Int) - c') [ZMOD (N : Int) ^ s] := by
  set m := (N : Int) ^ (s + 1)
  -- the exponents of the generator
  have k3 : g ^ (x + X * c') ≡ g ^ (x' + X * c) [ZMOD m] := by
    rw [pow_add, pow_add, pow_mul, pow_mul]
    calc g ^ x * (g ^ X) ^ c' ≡ (Y * y ^ c) * y ^ c' [ZMOD m] := k1.mul (hy.symm.pow _)
      _ = (Y * y ^ c') * y ^ c := by ring
      _ ≡ g ^ x' * (g ^ X) ^ c [ZMOD m] := k2.symm.mul (hy.pow _)
  have k4 : u ^ (x + X * c') ≡ u ^ (x' + X * c) [ZMOD m] := by
    refine (hu.pow _).trans (Int.ModEq.trans ?_ (hu.symm.pow _))
    rw [← pow_mul, ← pow_mul, mul_comm R, mul_comm R, pow_mul, pow_mul]
    exact k3.pow R
  have huU : Int.gcd (u ^ (x + X * c')) m = 1 := by
    apply gcd_pow_left
    have e : u % m = g ^ R % m := hu
    have := congrArg (fun z => Int.gcd z m) e
    rw [gcd_emod_left, gcd_emod_left] at this
    rw [this]
    exact gcd_pow_left hgU _
  have k5 : (1 + (N : Int)) ^ (b + B * c') * u ^ (x + X * c') ≡
      (1 + (N : Int)) ^ (b' + B * c) * u ^ (x + X * c') [ZMOD m] := by
    calc (1 + (N : Int)) ^ (b + B * c') * u ^ (x + X * c')
        = (1 + (N : Int)) ^ b * u ^ x * ((1 + (N : Int)) ^ B * u ^ X) ^ c' := by
          rw [pow_add, pow_add, pow_mul, pow_mul, mul_pow]; ring
      _ ≡ (D * e ^ c) * e ^ c' [ZMOD m] := e1.mul (he.symm.pow _)
      _ = (D * e ^ c') * e ^ c := by ring
      _ ≡ (1 + (N : Int)) ^ b' * u ^ x' * ((1 + (N : Int)) ^ B * u ^ X) ^ c [ZMOD m] :=
          e2.symm.mul (he.pow _)
      _ = (1 + (N : Int)) ^ (b' + B * c) * u ^ (x' + X * c) := by
          rw [pow_add, pow_add, pow_mul, pow_mul, mul_pow]; ring
      _ ≡ (1 + (N : Int)) ^ (b' + B * c) * u ^ (x + X * c') [ZMOD m] := k4.symm.mul_left _
  have k6 := S.pow_inj hys (modEq_cancel huU k5)
  push_cast at k6
  have := (k6.sub_right ((B : Int) * c')).sub_right (b' : Int)
  refine Int.ModEq.trans (meq_of_eq ?_) (this.trans (meq_of_eq ?_)) <;> ring

/-- Two accepted response proofs with the same first message and different challenges: the
signature for message `i` is the inverse of the encrypted value times the base. -/
theorem Made.response_sound (M : Made gs h n N s g ys v) {sk : CsPrivate}
    (S : Priv N s g ys xs sk) {req : BbRequest} {cts : List CsCt} {β : Nat → Int}
    (R : ReqOk v gs N s ys xs req cts β) {H H' : Hashes} {pk : BbPublicKey} {cm cr : Int}
    {resp : List Bytes} {p p' : BbRespProof} {m : BbRespMessage1}
    (A : RespAccepted H gs h n N s g ys v pk resp p req cm cr m)
    (A' : RespAccepted H' gs h n N s g ys v pk resp p' req cm cr m)
    (hcc : ¬ (v.group.order : Int) ∣ BN.ofBytes p.challenge - BN.ofBytes p'.challenge)
    (hbig : 3 * 2 ^ (2 * tBits v) * (v.group.order : Int) ^ 3 ≤ (N : Int) ^ s) :
    (∀ i < req.num, ¬ (v.group.order : Int) ∣ β i) ∧
    parseECPointVectorProto v.group resp = .ok ((List.range req.num).map fun i => sigP v (β i)) := by
  obtain ⟨cfg, P⟩ := M.pub
  have hL := M.len0
  have K := S.rel
  have hq := M.order
  have U := M.units
  set c := BN.ofBytes p.challenge with hcd
  set c' := BN.ofBytes p'.challenge with hcd'
  have hc0 : 0 ≤ c := BN.ofBytes_nonneg _
  have hc0' : 0 ≤ c' := BN.ofBytes_nonneg _
  have hclt : ∀ {H : Hashes} {p : BbRespProof},
      RespAccepted H gs h n N s g ys v pk resp p req cm cr m →
      BN.ofBytes p.challenge < 2 ^ v.params.chal.toNat := by
    intro H p A
    have hcb : 0 ≤ BN.ofBytes p.commitBetas := BN.ofBytes_nonneg _
    have hch := A.challenge
    have h0 := hch
    unfold responseChallenge at h0
    simp only [Res.bind_eq_ok] at h0
    obtain ⟨_, _, b1, hb1, b2, hb2, -⟩ := h0
    have hcm := (toBytes_eq_ok hb1).1
    have hcr := (toBytes_eq_ok hb2).1
    obtain ⟨d, hd, hd0, hd1⟩ := M.responseChallenge_ok H pk hcm hcr hcb req resp m
    rw [hch] at hd
    cases hd
    exact hd1
  have hc1 := hclt A
  have hc1' := hclt A'
  have key : ∀ i < req.num, ∃ σ, v.group.createECPoint (resp.getD i []) = .ok σ ∧
      β i • σ = v.base := by
    intro i hi
    obtain ⟨σ, D, h1, h2, h3⟩ := A.points i hi
    obtain ⟨σ', D', h1', h2', h3'⟩ := A'.points i hi
    rw [h1] at h1'
    cases h1'
    rw [h2] at h2'
    cases h2'
    refine ⟨σ, h1, ?_⟩
    -- the slot of message i
    set q := i / ys.length with hqd
    set j := i % ys.length with hjd
    have hij : q * ys.length + j = i := Nat.div_add_mod' i ys.length
    have hj : j < ys.length := Nat.mod_lt _ hL
    have hqc : q < cts.length := by
      rw [R.len]
      apply (lt_numCts hL).2
      omega
    have hql : q < req.cts.length := by rw [R.proto]; simpa using hqc
    have W := R.wf _ (getD_mem default hqc)
    obtain ⟨hIsU, hel, hcomp⟩ := R.enc q hqc
    obtain ⟨Bn, hB1, hB2⟩ := hcomp j (by rw [← K.len]; exact hj)
    simp only [hij] at hB1
    obtain ⟨Rn, hR⟩ := R.pow _ (getD_mem default hqc)
    rw [P.hg] at hR
    have eproto : req.cts.getD q ⟨[], []⟩ = ctB (cts.getD q default) := by
      rw [R.proto]
      simp [List.getD_eq_getElem?_getD, hqc]
    have eu : BN.ofBytes (req.cts.getD q ⟨[], []⟩).u = (cts.getD q default).u := by
      rw [eproto]; exact ofBytes_encB W.u0
    have ee : numAt (req.cts.getD q ⟨[], []⟩).es j = (cts.getD q default).es.getD j 0 := by
      rw [eproto]
      exact numAt_vecB (fun e he => (W.es e he).1) (by rw [W.len]; exact hj)
    have t1 := A.cts q hql j hj (by omega)
    have t2 := A'.cts q hql j hj (by omega)
    rw [eu, ee, hij] at t1 t2
    have ans := S.answers M.ysne U.hg hR (K.rel j (by rw [← K.len]; exact hj)) hB2
      (A.keys j hj) (A'.keys j hj) t1 t2
    rw [Int.toNat_of_nonneg (numAt_nonneg _ _), Int.toNat_of_nonneg (numAt_nonneg _ _),
      Int.toNat_of_nonneg hc0, Int.toNat_of_nonneg hc0'] at ans
    have ans2 : numAt p.betas i - numAt p'.betas i ≡ β i * (c - c') [ZMOD (N : Int) ^ s] :=
      ans.trans (hB1.mul_right _)
    have eq : numAt p.betas i - numAt p'.betas i = β i * (c - c') := by
      have r1 := A.range i hi
      have r2 := A'.range i hi
      have n1 := numAt_nonneg p.betas i
      have n2 := numAt_nonneg p'.betas i
      have e1 : (2 * (v.params.chal + v.params.sec) + 1).toNat = 2 * tBits v + 1 := by
        unfold tBits
        have := M.chal0
        have := M.sec0
        omega
      rw [e1, pow_succ] at r1 r2
      have hb0 := R.nonneg i hi
      have hb1 := R.bound i hi
      have hcl := M.chal_lt
      set T : Int := 2 ^ tBits v with hT
      have eT : (2 : Int) ^ (2 * tBits v) = T * T := by rw [hT]; ring
      rw [eT] at r1 r2 hbig
      set Q : Int := (v.group.order : Int) ^ 3 with hQ
      have hQ0 : 0 < Q := by positivity
      set C : Int := 2 ^ v.params.chal.toNat with hC
      have hC2 : 2 ≤ C := by
        have := M.chal0
        calc (2 : Int) = 2 ^ 1 := by norm_num
          _ ≤ C := pow_le_pow_right₀ (by norm_num) (by omega)
      have h2 : C * (T + 2) ≤ T * T := by nlinarith
      have h3 : β i * C ≤ T * T * Q := by
        calc β i * C ≤ Q * (T + 2) * C := mul_le_mul_of_nonneg_right hb1 (by omega)
          _ = Q * (C * (T + 2)) := by ring
          _ ≤ Q * (T * T) := mul_le_mul_of_nonneg_left h2 hQ0.le
          _ = _ := by ring
      have h4 : β i * (c - c') ≤ β i * C := mul_le_mul_of_nonneg_left (by omega) hb0
      have h5 : -(β i * C) ≤ β i * (c - c') := by
        rw [← mul_neg]
        exact mul_le_mul_of_nonneg_left (by omega) hb0
      have e3 : 3 * (T * T) * Q = 3 * (T * T * Q) := by ring
      have e4 : T * T * 2 * Q = 2 * (T * T * Q) := by ring
      rw [e3] at hbig
      rw [e4] at r1 r2
      have hd := ans2.dvd
      by_contra hne
      have hne' : β i * (c - c') - (numAt p.betas i - numAt p'.betas i) ≠ 0 := by omega
      have := Int.le_of_dvd (by positivity : 0 < |β i * (c - c') - (numAt p.betas i - numAt p'.betas i)|)
        ((dvd_abs _ _).2 hd)
      have hab : |β i * (c - c') - (numAt p.betas i - numAt p'.betas i)| < 3 * (T * T * Q) := by
        rw [abs_lt]
        constructor <;> linarith
      omega
    have hsub : (c - c') • (β i • σ - v.base) = 0 := by
      rw [smul_sub, smul_smul, mul_comm (c - c'), ← eq, sub_smul, h3, h3', sub_smul]
      abel
    by_contra hne
    exact M.lawful.zsmul_ne hcc (sub_ne_zero.2 hne) hsub
  have hnd : ∀ i < req.num, ¬ (v.group.order : Int) ∣ β i := by
    intro i hi ⟨t, ht⟩
    obtain ⟨σ, _, h2⟩ := key i hi
    rw [ht, mul_comm, mul_smul, M.lawful.order_zsmul, smul_zero] at h2
    exact M.base0 h2.symm
  refine ⟨hnd, ?_⟩
  unfold parseECPointVectorProto
  have er : resp = (List.range req.num).map (fun i => resp.getD i []) := by
    rw [← A.respLen]
    exact (map_getD_range [] resp).symm
  rw [er, List.mapM_map]
  apply mapM_eq_map
  intro i hi
  have hi : i < req.num := by simpa using hi
  obtain ⟨σ, h1, h2⟩ := key i hi
  show v.group.createECPoint (resp.getD i []) = _
  rw [h1]
  congr 1
  have h3 := M.smul_sigP (hnd i hi)
  by_contra hne
  refine M.lawful.zsmul_ne (hnd i hi) (sub_ne_zero.2 hne) ?_
  rw [smul_sub, h2, h3, sub_self]

end PJC.Bb
