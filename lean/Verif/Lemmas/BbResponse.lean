import Verif.Lemmas.BbSig
set_option linter.unusedSectionVars false
/-
The response half of the oblivious signature.
-/
namespace PJC.Bb
open PJC.DJ PJC.Ped PJC.Props

/-! ### Batches -/

theorem numCts_mul {k L : Nat} (hL : 0 < L) : k ≤ numCts k L * L := by
  by_contra hh
  have h1 : numCts k L < numCts k L := (lt_numCts hL).2 (by omega)
  omega

theorem map_getD_range {α : Type} (a : α) (l : List α) :
    (List.range l.length).map (fun i => l.getD i a) = l := by
  apply List.ext_getElem
  · simp
  · intro i h1 h2
    simp [List.getD_eq_getElem?_getD, h2]

theorem range_add_map {α : Type} (f : Nat → α) (a b : Nat) :
    (List.range (a + b)).map f = (List.range a).map f ++ (List.range b).map (fun j => f (a + j)) := by
  rw [List.range_add, List.map_append, List.map_map]
  rfl

theorem flatten_batches {α : Type} (f : Nat → α) (L : Nat) : ∀ m : Nat,
    ((List.range m).map (fun i => (List.range L).map fun j => f (i * L + j))).flatten =
      (List.range (m * L)).map f
  | 0 => by simp
  | m + 1 => by
    rw [List.range_succ, List.map_append, List.flatten_append, flatten_batches f L m, Nat.succ_mul,
      range_add_map]
    simp

theorem take_map_range {α : Type} (f : Nat → α) {a b : Nat} (h : a ≤ b) :
    ((List.range b).map f).take a = (List.range a).map f := by
  rw [← List.map_take, List.take_range, min_eq_left h]

theorem batch_ok {L k i : Nat} (hL : 0 < L) (hi : i < numCts k L) (l : List Int) :
    batch L k l i = .ok ((l.drop (i * L)).take (batchSize L k i)) := by
  have := (lt_numCts hL).1 hi
  unfold batch batchSize
  rw [if_neg (by omega)]

theorem batch_length {L k i : Nat} {l : List Int} (hl : l.length = k) :
    ((l.drop (i * L)).take (batchSize L k i)).length = batchSize L k i := by
  rw [List.length_take, List.length_drop, hl]
  unfold batchSize
  omega

variable {G : Type} [AddCommGroup G] [DecidableEq G]
variable {gs : List Int} {h n : Int} {N s : Nat} {g : Int} {ys xs : List Int} {v : BbSig G}

/-- A request whose ciphertexts encrypt `β`, batch by batch. -/
structure ReqOk (v : BbSig G) (gs : List Int) (N s : Nat) (ys xs : List Int) (req : BbRequest)
    (cts : List CsCt) (β : Nat → Int) : Prop where
  num : req.num ≤ gs.length
  proto : req.cts = cts.map ctB
  len : cts.length = numCts req.num ys.length
  wf : ∀ c ∈ cts, Wf ((N : Int) ^ (s + 1)) ys.length c
  enc : ∀ i < cts.length, Cs.CtOk N s xs (fun j => β (i * ys.length + j)) (cts.getD i default)
  nonneg : ∀ i < req.num, 0 ≤ β i
  bound : ∀ i < req.num, β i ≤ (v.group.order : Int) ^ 3 * (2 ^ tBits v + 2)
  pow : ∀ c ∈ cts, ∃ e : Nat, c.u ≡ v.cs.g ^ e [ZMOD (N : Int) ^ (s + 1)]

theorem Made.beta_bound (M : Made gs h n N s g ys v) :
    (v.group.order : Int) ^ 3 * (2 ^ tBits v + 2) < (N : Int) ^ s := by
  have h1 := M.bound
  have hq := M.order
  have hc := M.chal_lt
  have h4 : (4 : Int) ≤ 2 ^ tBits v := by
    have : (2 : Int) ≤ 2 ^ v.params.chal.toNat := by
      have := M.chal0
      calc (2 : Int) = 2 ^ 1 := by norm_num
        _ ≤ 2 ^ v.params.chal.toNat := pow_le_pow_right₀ (by norm_num) (by omega)
    omega
  set T : Int := 2 ^ tBits v with hT
  have e : (2 : Int) ^ (2 * tBits v + 1) = T * T * 2 := by rw [hT]; ring
  rw [e] at h1
  set Q : Int := (v.group.order : Int) ^ 3 with hQ
  have hQ0 : 0 < Q := by positivity
  have h5 : T + 2 < T * T * 2 := by nlinarith
  have h6 : Q * (T + 2) < Q * (T * T * 2) := mul_lt_mul_of_pos_left h5 hQ0
  linarith [mul_comm Q (T * T * 2)]

/-- The signature for `b`. -/
def sigP (v : BbSig G) (b : Int) : G := BN.inv b v.group.order • v.base

theorem Made.gcd_iff (M : Made gs h n N s g ys v) (b : Int) :
    Int.gcd b v.group.order = 1 ↔ ¬ (v.group.order : Int) ∣ b := by
  have hp := M.lawful.prime
  rw [Int.gcd_comm, ← Int.isCoprime_iff_gcd_eq_one,
    Prime.coprime_iff_not_dvd (Nat.prime_iff_prime_int.1 hp)]

theorem Made.sigP_ne (M : Made gs h n N s g ys v) {b : Int} (hb : ¬ (v.group.order : Int) ∣ b) :
    sigP v b ≠ 0 := by
  have hq := M.order
  obtain ⟨h1, _, _⟩ := BN.inv_spec (by omega : (0 : Int) < v.group.order) ((M.gcd_iff b).2 hb)
  apply M.lawful.zsmul_ne _ M.base0
  intro hd
  have h2 : b * BN.inv b v.group.order ≡ 0 [ZMOD v.group.order] :=
    (Int.modEq_zero_iff_dvd).2 (hd.mul_left b)
  have h3 : (v.group.order : Int) ∣ 1 := (Int.modEq_zero_iff_dvd).1 (h1.symm.trans h2)
  have := Int.le_of_dvd (by norm_num) h3
  omega

theorem Made.smul_sigP (M : Made gs h n N s g ys v) {b : Int} (hb : ¬ (v.group.order : Int) ∣ b) :
    b • sigP v b = v.base := by
  have hq := M.order
  obtain ⟨h1, _, _⟩ := BN.inv_spec (by omega : (0 : Int) < v.group.order) ((M.gcd_iff b).2 hb)
  unfold sigP
  rw [smul_smul, M.lawful.zsmul_congr h1, one_smul]

/-- The private side of the encryption scheme. -/
structure Priv (N s : Nat) (g : Int) (ys xs : List Int) (sk : CsPrivate) : Prop where
  sk : ∃ cfg, Cs.PrivGood cfg sk N s g ys xs
  rel : Cs.KeyRel N s g ys xs

theorem Priv.decryptOne_ok {sk : CsPrivate} (M : Made gs h n N s g ys v)
    (S : Priv N s g ys xs sk) {ct : CsCt} (w : Wf ((N : Int) ^ (s + 1)) ys.length ct)
    {m : Nat → Int} (hc : Cs.CtOk N s xs m ct) :
    decryptOne v sk (ctB ct) =
      .ok (ct, (List.range ys.length).map fun j => m j % (N : Int) ^ s) := by
  obtain ⟨cfg, P⟩ := M.pub
  obtain ⟨cfg', P'⟩ := S.sk
  unfold decryptOne
  rw [w.parse P, Res.ok_bind, Cs.decrypt_spec P' S.rel.nonneg hc, S.rel.len]
  rfl

/-- The entries of a dummy ciphertext. -/
def dumEP (M N g : Int) (ys : List Int) (u : Int) (xs bs : List Int) (j : Nat) : Int :=
  u ^ (xs.getD j 0).toNat % M * (encP M N g ys bs 0).es.getD j 0 % M

def dumEsP (M N g : Int) (ys : List Int) (k : Nat) (cts : List CsCt) (betas xs : List Int)
    (i : Nat) : List Int :=
  (List.range (batchSize ys.length k i)).map
    (dumEP M N g ys (cts.getD i default).u xs
      ((betas.drop (i * ys.length)).take (batchSize ys.length k i)))

theorem dumEsP_nonneg {M N g : Int} (hM : 0 < M) {ys : List Int} {k : Nat} {cts : List CsCt}
    {betas xs : List Int} {i : Nat} : ∀ e ∈ dumEsP M N g ys k cts betas xs i, 0 ≤ e := by
  intro e he
  obtain ⟨j, _, rfl⟩ := List.mem_map.1 he
  exact Int.emod_nonneg _ hM.ne'

theorem Priv.dummyEs_ok {sk : CsPrivate} (M : Made gs h n N s g ys v) (S : Priv N s g ys xs sk)
    {k : Nat} {cts : List CsCt} (hl : cts.length = numCts k ys.length) {betas dxs : List Int}
    (hb : betas.length = k) (hb0 : ∀ b ∈ betas, 0 ≤ b) (hx : dxs.length = ys.length)
    (hx0 : ∀ x ∈ dxs, 0 ≤ x) {i : Nat} (hi : i < numCts k ys.length) :
    dummyEs v sk k cts betas dxs i =
      .ok (vecB (dumEsP ((N : Int) ^ (s + 1)) N g ys k cts betas dxs i)) := by
  obtain ⟨cfg, P⟩ := M.pub
  obtain ⟨cfg', P'⟩ := S.sk
  have hM := modulus_pos P
  have hL := M.len0
  have hbl : ((betas.drop (i * ys.length)).take (batchSize ys.length k i)).length ≤ ys.length := by
    rw [batch_length hb]
    unfold batchSize
    omega
  unfold dummyEs
  rw [P.hlen, batch_ok hL hi, Res.ok_bind,
    encryptWithRand_ok P'.pub hbl (drop_take_nonneg hb0 _ _) le_rfl (.inr rfl), Res.ok_bind,
    idx_ok default (by omega), Res.ok_bind, batch_length hb,
    mapM_eq_map (g := dumEP ((N : Int) ^ (s + 1)) N g ys (cts.getD i default).u dxs
      ((betas.drop (i * ys.length)).take (batchSize ys.length k i))), Res.ok_bind]
  · exact toProto_vecB (dumEsP_nonneg hM)
  · intro j hj
    have hj : j < batchSize ys.length k i := by simpa using hj
    have hj' : j < ys.length := by unfold batchSize at hj; omega
    unfold dummyE dumEP
    rw [idx_ok 0 (by omega), Res.ok_bind, P'.pub.hmod, modExp_ok (getD_nonneg hx0 j) hM.ne',
      Res.ok_bind, idx_ok 0 (by simpa [encP] using hj'), Res.ok_bind, modMul_ok hM.ne']

/-- The verifier recomputes the dummy entries. -/
theorem Made.recomputeEs_ok (M : Made gs h n N s g ys v) (K : Cs.KeyRel N s g ys xs) {k : Nat}
    {cts : List CsCt} (hl : cts.length = numCts k ys.length)
    (wf : ∀ c ∈ cts, Wf ((N : Int) ^ (s + 1)) ys.length c) {β : Nat → Int}
    (enc : ∀ i < cts.length, Cs.CtOk N s xs (fun j => β (i * ys.length + j)) (cts.getD i default))
    {betas dbetas dxs : List Int} (hβ : ∀ i < k, betas.getD i 0 = β i)
    (hb : betas.length = k) (hb0 : ∀ b ∈ betas, 0 ≤ b) (hd : dbetas.length = k)
    (hd0 : ∀ b ∈ dbetas, 0 ≤ b) (hx : dxs.length = ys.length)
    (hx0 : ∀ x ∈ dxs, 0 ≤ x) {c : Int} (hc : 0 ≤ c) {i : Nat} (hi : i < numCts k ys.length) :
    recomputeEs v c k cts (maskL c dbetas betas) (maskL c dxs xs) i =
      .ok (vecB (dumEsP ((N : Int) ^ (s + 1)) N g ys k cts dbetas dxs i)) := by
  obtain ⟨cfg, P⟩ := M.pub
  have hM := modulus_pos P
  have hL := M.len0
  have hxl : dxs.length = xs.length := by rw [hx, K.len]
  have hml : (maskL c dbetas betas).length = k := by rw [maskL_length (by omega), hb]
  have hm0 := maskL_nonneg hc hd0 hb0
  have hmx0 := maskL_nonneg hc hx0 K.nonneg
  have hbl : (((maskL c dbetas betas).drop (i * ys.length)).take
      (batchSize ys.length k i)).length ≤ ys.length := by
    rw [batch_length hml]
    unfold batchSize
    omega
  have hic : i < cts.length := by omega
  have W := wf _ (getD_mem default hic)
  have E := enc i hic
  unfold recomputeEs
  rw [P.hlen, batch_ok hL hi, Res.ok_bind,
    encryptWithRand_ok P hbl (drop_take_nonneg hm0 _ _) le_rfl (.inr rfl), Res.ok_bind,
    idx_ok default (by omega), Res.ok_bind, batch_length hml,
    mapM_eq_map (g := dumEP ((N : Int) ^ (s + 1)) N g ys (cts.getD i default).u dxs
      ((dbetas.drop (i * ys.length)).take (batchSize ys.length k i))), Res.ok_bind]
  · exact toProto_vecB (dumEsP_nonneg hM)
  · intro j hj
    have hj : j < batchSize ys.length k i := by simpa using hj
    have hj' : j < ys.length := by unfold batchSize at hj; omega
    have hjk : i * ys.length + j < k := by unfold batchSize at hj; omega
    have hje : j < (cts.getD i default).es.length := by rw [W.len]; exact hj'
    unfold recomputeE
    rw [idx_ok 0 (by simpa [encP] using hj'), Res.ok_bind,
      idx_ok 0 (by rw [maskL_length hxl, ← K.len]; exact hj'), Res.ok_bind, P.hmod,
      modExp_ok (getD_nonneg hmx0 j) hM.ne', Res.ok_bind, modMul_ok hM.ne', Res.ok_bind,
      idx_ok 0 hje, Res.ok_bind, modExp_ok hc hM.ne', Res.ok_bind]
    obtain ⟨iv, k1, _, k2⟩ := recover hM (W.es _ (getD_mem 0 hje)).2.2 c.toNat
    rw [k1, Res.ok_bind, modMul_ok hM.ne']
    congr 1
    rw [(k2 (dumEP ((N : Int) ^ (s + 1)) N g ys (cts.getD i default).u dxs
      ((dbetas.drop (i * ys.length)).take (batchSize ys.length k i)) j) _ ?_).2]
    · unfold dumEP
      exact Int.emod_emod_of_dvd _ (dvd_refl _)
    · unfold dumEP
      simp only [encP]
      rw [getD_map_range _ _ hj', getD_map_range _ _ hj', getD_drop_take hj, getD_drop_take hj,
        maskL_getD (by omega), maskL_getD hxl, hβ _ hjk]
      obtain ⟨Mj, e1, e2⟩ := E.2.2 j (by rw [← K.len]; exact hj')
      have b0 : 0 ≤ β (i * ys.length + j) := by
        rw [← hβ _ hjk]; exact getD_nonneg hb0 _
      have hper : (1 + (N : Int)) ^ (β (i * ys.length + j)).toNat ≡ (1 + (N : Int)) ^ Mj
          [ZMOD (N : Int) ^ (s + 1)] := by
        apply one_add_pow_period N (N : Int) (dvd_refl _) s
        apply Int.natCast_modEq_iff.1
        rw [Int.toNat_of_nonneg b0]
        push_cast
        exact e1.symm
      have es : (cts.getD i default).es.getD j 0 ≡ (1 + (N : Int)) ^ (β (i * ys.length + j)).toNat *
          (cts.getD i default).u ^ (xs.getD j 0).toNat [ZMOD (N : Int) ^ (s + 1)] :=
        e2.trans (hper.symm.mul_right _)
      rw [pow_linear _ (getD_nonneg hd0 _) b0 hc,
        pow_linear _ (getD_nonneg hx0 _) (getD_nonneg K.nonneg _) hc]
      simp only [Int.toNat_zero, pow_zero, one_mul]
      set u := (cts.getD i default).u
      set A := (1 + (N : Int)) ^ (dbetas.getD (i * ys.length + j) 0).toNat
      set B := (1 + (N : Int)) ^ (β (i * ys.length + j)).toNat
      set C := u ^ (dxs.getD j 0).toNat
      set D := u ^ (xs.getD j 0).toNat
      set m := (N : Int) ^ (s + 1)
      have l1 : A * B ^ c.toNat % m * (C * D ^ c.toNat % m) % m ≡
          A * B ^ c.toNat * (C * D ^ c.toNat) [ZMOD m] :=
        (Int.mod_modEq _ _).trans ((Int.mod_modEq _ _).mul (Int.mod_modEq _ _))
      have l2 : C % m * (A % m) % m * ((cts.getD i default).es.getD j 0) ^ c.toNat ≡
          (C * A) * (B * D) ^ c.toNat [ZMOD m] :=
        (((Int.mod_modEq _ _).trans ((Int.mod_modEq _ _).mul (Int.mod_modEq _ _)))).mul (es.pow _)
      refine l1.trans (Int.ModEq.trans (meq_of_eq ?_) l2.symm)
      rw [mul_pow]; ring

theorem Made.recomputeYs_ok (M : Made gs h n N s g ys v) (K : Cs.KeyRel N s g ys xs)
    {dxs : List Int} (hx : dxs.length = ys.length) (hx0 : ∀ x ∈ dxs, 0 ≤ x) {c : Int} (hc : 0 ≤ c) :
    (List.range v.cs.len).mapM (recomputeY v c (maskL c dxs xs)) =
      .ok (dxs.map fun x => g ^ x.toNat % (N : Int) ^ (s + 1)) := by
  obtain ⟨cfg, P⟩ := M.pub
  have hM := modulus_pos P
  have U := M.units
  have hxl : dxs.length = xs.length := by rw [hx, K.len]
  have hmx0 := maskL_nonneg hc hx0 K.nonneg
  have e : dxs.map (fun x => g ^ x.toNat % (N : Int) ^ (s + 1)) =
      (List.range ys.length).map (fun i => g ^ (dxs.getD i 0).toNat % (N : Int) ^ (s + 1)) := by
    apply ext_getD
    · simp [hx]
    · intro i hi
      have hi : i < dxs.length := by simpa using hi
      rw [getD_map hi, getD_map_range _ _ (by omega)]
  rw [e, P.hlen]
  apply mapM_eq_map
  intro i hi
  have hi : i < ys.length := by simpa using hi
  unfold recomputeY
  rw [idx_ok 0 (by rw [maskL_length hxl, ← K.len]; exact hi), Res.ok_bind, P.hg, P.hmod,
    modExp_ok (getD_nonneg hmx0 i) hM.ne', Res.ok_bind, P.hys, idx_ok 0 hi, Res.ok_bind,
    modExp_ok hc hM.ne', Res.ok_bind]
  obtain ⟨iv, k1, _, k2⟩ := recover hM (U.hys _ (getD_mem 0 hi)) c.toNat
  rw [k1, Res.ok_bind, modMul_ok hM.ne']
  congr 1
  rw [(k2 (g ^ (dxs.getD i 0).toNat) _ ?_).2]
  rw [maskL_getD hxl, pow_linear _ (getD_nonneg hx0 i) (getD_nonneg K.nonneg i) hc]
  exact (Int.mod_modEq _ _).trans
    (((K.rel i (by rw [← K.len]; exact hi)).symm.pow _).mul_left _)

theorem mask_eq_maskL (c : Int) (ds bs : List Int) :
    List.zipWith (fun d b => d + b * c) ds bs = maskL c ds bs := by
  unfold maskL
  congr 1
  funext d b
  rw [mul_comm]

theorem maskXs_ok {c : Int} {dxs xs : List Int} {L : Nat} (h1 : dxs.length = L)
    (h2 : xs.length = L) : (List.range L).mapM (maskX c dxs xs) = .ok (maskL c dxs xs) := by
  have e : maskL c dxs xs = (List.range L).map (fun i => dxs.getD i 0 + c * xs.getD i 0) := by
    apply ext_getD
    · rw [maskL_length (by omega)]; simp [h2]
    · intro i hi
      rw [maskL_getD (by omega), getD_map_range _ _ (by rw [maskL_length (by omega)] at hi; omega)]
  rw [e]
  apply mapM_eq_map
  intro i hi
  have hi : i < L := by simpa using hi
  unfold maskX
  rw [idx_ok 0 (by omega), Res.ok_bind, idx_ok 0 (by omega), Res.ok_bind, mul_comm]
  rfl

theorem Made.responseChallenge_ok (M : Made gs h n N s g ys v) (H : Hashes) (pk : BbPublicKey)
    {cm cr cb : Int} (hcm : 0 ≤ cm) (hcr : 0 ≤ cr) (hcb : 0 ≤ cb) (req : BbRequest)
    (resp : List Bytes) (m : BbRespMessage1) :
    ∃ c, responseChallenge H v pk cm cr req resp cb m = .ok c ∧ 0 ≤ c ∧
      c < 2 ^ v.params.chal.toNat := by
  have := M.chal0
  have := M.chal
  unfold responseChallenge
  rw [M.chalBound, Res.ok_bind, toBytes_encB hcm, Res.ok_bind, toBytes_encB hcr, Res.ok_bind,
    toBytes_encB hcb, Res.ok_bind]
  exact oracle_ok H _ (by omega)

/-- The dummy exponents of the response proof. -/
def dBetaB (v : BbSig G) : Int :=
  2 ^ (2 * tBits v) * (v.group.order : Int) * v.group.order * v.group.order

theorem Made.betasBound_ok (M : Made gs h n N s g ys v) :
    betasBound v.group (2 * v.params.chal + 2 * v.params.sec) = .ok (dBetaB v) ∧
    betasBound v.group (2 * v.params.chal + 2 * v.params.sec + 1) = .ok (dBetaB v * 2) := by
  unfold betasBound
  constructor
  · rw [M.shift_2t, Res.ok_bind, one_mul]; rfl
  · rw [M.shift_2t1, Res.ok_bind, one_mul]
    show Res.ok _ = Res.ok _
    congr 1
    unfold dBetaB
    rw [pow_succ]; ring

theorem Made.dBetaB_pos (M : Made gs h n N s g ys v) : 0 < dBetaB v := by
  have := M.order
  unfold dBetaB
  positivity

/-- The response generator and verifier on a request that encrypts `β`. -/
theorem Made.response (M : Made gs h n N s g ys v) {sk : CsPrivate} (S : Priv N s g ys xs sk)
    {req : BbRequest} {cts : List CsCt} {β : Nat → Int} (R : ReqOk v gs N s ys xs req cts β)
    (H : Hashes) (pk : BbPublicKey) {cm cr : Int} (hcm : 0 ≤ cm) (hcr : 0 ≤ cr) (d : RespDraws) :
    (generateResponse H v sk req pk cm cr d = .err .invalidArgument ∧
      ∃ i < req.num, (v.group.order : Int) ∣ β i) ∨
    ((∀ i < req.num, ¬ (v.group.order : Int) ∣ β i) ∧
      ((generateResponse H v sk req pk cm cr d = .err .internal ∧
        ∃ i < req.num, (v.group.order : Int) ∣ (d.betas i : Int) % dBetaB v) ∨
      ((∀ i < req.num, ¬ (v.group.order : Int) ∣ (d.betas i : Int) % dBetaB v) ∧
        ∃ resp π, generateResponse H v sk req pk cm cr d = .ok (resp, π) ∧
          parseECPointVectorProto v.group resp =
            .ok ((List.range req.num).map fun i => sigP v (β i)) ∧
          verifyResponse H v pk resp π req cm cr = .ok ()))) := by
  obtain ⟨cfg, P⟩ := M.pub
  obtain ⟨cfg', P'⟩ := S.sk
  have K := S.rel
  have hM := modulus_pos P
  have hL := M.len0
  have hq := M.order
  have hn := M.n0
  have Gd := M.good
  have hN : (0 : Int) < N := by have := M.N1; omega
  have hxl : xs.length = ys.length := K.len.symm
  set k := req.num with hk
  -- decryption
  have hdec : req.cts.mapM (decryptOne v sk) = .ok ((List.range cts.length).map fun i =>
      (cts.getD i default, (List.range ys.length).map fun j =>
        β (i * ys.length + j) % (N : Int) ^ s)) := by
    rw [R.proto]
    conv_lhs => rw [← map_getD_range (default : CsCt) cts]
    rw [List.map_map, List.mapM_map]
    apply mapM_eq_map
    intro i hi
    have hi : i < cts.length := by simpa using hi
    exact S.decryptOne_ok M (R.wf _ (getD_mem default hi)) (R.enc i hi)
  set betas := (List.range k).map β with hbetas
  have hlb : betas.length = k := by simp [hbetas]
  have hall : ((((List.range cts.length).map fun i =>
      (cts.getD i (default : CsCt), (List.range ys.length).map fun j =>
        β (i * ys.length + j) % (N : Int) ^ s)).map Prod.snd).flatten) =
      (List.range (cts.length * ys.length)).map fun i => β i % (N : Int) ^ s := by
    rw [List.map_map]
    exact flatten_batches (fun i => β i % (N : Int) ^ s) ys.length cts.length
  have hfst : ((List.range cts.length).map fun i =>
      (cts.getD i (default : CsCt), (List.range ys.length).map fun j =>
        β (i * ys.length + j) % (N : Int) ^ s)).map Prod.fst = cts := by
    rw [List.map_map]
    exact map_getD_range default cts
  have hkm : k ≤ cts.length * ys.length := by rw [R.len]; exact numCts_mul hL
  have htake : ((List.range (cts.length * ys.length)).map fun i => β i % (N : Int) ^ s).take k =
      betas := by
    rw [take_map_range _ hkm]
    apply List.map_congr_left
    intro i hi
    have hi : i < k := by simpa using hi
    have := M.beta_bound
    have := R.bound i hi
    exact Int.emod_eq_of_lt (R.nonneg i hi) (by omega)
  have hb0 : ∀ b ∈ betas, 0 ≤ b := by
    intro b hb
    obtain ⟨i, hi, rfl⟩ := List.mem_map.1 hb
    exact R.nonneg i (by simpa using hi)
  have hβ : ∀ i < k, betas.getD i 0 = β i := fun i hi => getD_map_range _ _ hi
  have hsign : betas.mapM (signOne v) =
      if ∀ b ∈ betas, ¬ (v.group.order : Int) ∣ b then .ok (betas.map (sigP v))
      else .err .invalidArgument := by
    apply mapM_ok_or_err (P := fun b : Int => ¬ (v.group.order : Int) ∣ b)
    intro b _
    unfold signOne BN.modInverse
    by_cases hd : (v.group.order : Int) ∣ b
    · rw [if_neg (by rw [M.gcd_iff]; tauto), if_neg (by simpa using hd)]
      rfl
    · rw [if_pos ⟨by omega, (M.gcd_iff b).2 hd⟩, if_pos hd]
      rfl
  have hgen0 : ¬ (req.num > v.ped.gs.length) := by rw [Gd.gs_eq]; have := R.num; omega
  by_cases hz : ∀ b ∈ betas, ¬ (v.group.order : Int) ∣ b
  swap
  · left
    constructor
    · unfold generateResponse
      rw [if_neg hgen0, hdec, Res.ok_bind]
      simp only [hall, List.length_map, List.length_range]
      rw [if_neg (by omega), ← hk, htake, hsign, if_neg hz]
      rfl
    · push Not at hz
      obtain ⟨b, hb, hd⟩ := hz
      obtain ⟨i, hi, rfl⟩ := List.mem_map.1 hb
      exact ⟨i, by simpa using hi, hd⟩
  right
  have hz' : ∀ i < k, ¬ (v.group.order : Int) ∣ β i := fun i hi =>
    hz _ (List.mem_map.2 ⟨i, by simpa using hi, rfl⟩)
  refine ⟨hz', ?_⟩
  set sigs := betas.map (sigP v) with hsigs
  have hs0 : ∀ P ∈ sigs, P ≠ 0 := by
    intro P hP
    obtain ⟨b, hb, rfl⟩ := List.mem_map.1 hP
    exact M.sigP_ne (hz b hb)
  obtain ⟨resp, hresp, hresp'⟩ := ecPoints_round M.lawful hs0
  have hls : sigs.length = k := by simp [hsigs, hlb]
  have hlr : resp.length = k := by
    have := (Cs.mapM_ok_iff.1 hresp).length_eq
    omega
  -- commitment
  have hr0 : 0 ≤ (d.openBetas : Int) % n := Int.emod_nonneg _ hn.ne'
  have vb : Valid gs betas ((d.openBetas : Int) % n) := ⟨by rw [hlb]; exact R.num, hb0, hr0⟩
  have hcb : Ped.commit v.ped betas d.openBetas =
      .ok (commitment gs h n betas ((d.openBetas : Int) % n), (d.openBetas : Int) % n) := by
    unfold Ped.commit
    rw [Gd.n_eq, randLessThan_eq _ hn, Res.ok_bind, Gd.commit vb]
    rfl
  set cb := commitment gs h n betas ((d.openBetas : Int) % n) with hcbd
  have hcb0 : 0 ≤ cb := commitment_nonneg hn _ _
  -- dummies
  have hB := M.dBetaB_pos
  have hX : 0 < (N : Int) * 2 ^ tBits v := by positivity
  set dBs := drawP k (dBetaB v) d.betas with hdBs
  obtain ⟨hdl, hd0⟩ := drawP_ok hB k d.betas
  rw [← hdBs] at hdl hd0
  set dXs := drawP ys.length ((N : Int) * 2 ^ tBits v) d.xs with hdXs
  obtain ⟨hxl', hx0⟩ := drawP_ok hX ys.length d.xs
  rw [← hdXs] at hxl' hx0
  set dO := (d.opening : Int) % ((N : Int) * 2 ^ tBits v) with hdO
  have hdO0 : 0 ≤ dO := Int.emod_nonneg _ hX.ne'
  have vd : Valid gs dBs dO := ⟨by rw [hdl]; exact R.num, hd0, hdO0⟩
  set dC := commitment gs h n dBs dO with hdC
  have hdC0 : 0 ≤ dC := commitment_nonneg hn _ _
  have hYs : dXs.mapM (fun x => BN.modExp sk.pub.g x sk.pub.modulus) =
      .ok (dXs.map fun x => g ^ x.toNat % (N : Int) ^ (s + 1)) := by
    rw [P'.pub.hg, P'.pub.hmod]
    exact mapM_eq_map (fun x hx => modExp_ok (hx0 x hx) hM.ne')
  have hYs0 : ∀ y ∈ dXs.map (fun x => g ^ x.toNat % (N : Int) ^ (s + 1)), 0 ≤ y := by
    intro y hy
    obtain ⟨x, _, rfl⟩ := List.mem_map.1 hy
    exact Int.emod_nonneg _ hM.ne'
  set dYs := dXs.map (fun x => g ^ x.toNat % (N : Int) ^ (s + 1)) with hdYs
  have hEs : (List.range req.cts.length).mapM (dummyEs v sk k cts dBs dXs) =
      .ok ((List.range req.cts.length).map fun i =>
        vecB (dumEsP ((N : Int) ^ (s + 1)) N g ys k cts dBs dXs i)) := by
    apply mapM_eq_map
    intro i hi
    have hi : i < numCts k ys.length := by
      rw [← R.len]; rw [R.proto] at hi; simpa using hi
    exact S.dummyEs_ok M R.len hdl hd0 hxl' hx0 hi
  set m1Es := (List.range req.cts.length).map fun i =>
        vecB (dumEsP ((N : Int) ^ (s + 1)) N g ys k cts dBs dXs i) with hm1Es
  rcases ecPoints_cases M.lawful (List.zipWith (· • ·) dBs sigs) with ⟨m1Gs, hGs⟩ | ⟨h0, hGs⟩
  swap
  · left
    constructor
    · unfold generateResponse
      rw [if_neg hgen0, hdec, Res.ok_bind]
      simp only [hall, hfst, List.length_map, List.length_range]
      rw [if_neg (by omega), ← hk, htake, hsign, if_pos hz]
      simp only [Res.ok_bind, hresp, hcb, toBytes_encB hcb0, M.betasBound_ok.1, drawList_ok hB,
        ← hdBs, P.hn, P.hlen, M.shift_t, drawList_ok hX, ← hdXs, randLessThan_eq _ hX, ← hdO,
        Gd.commit vd, hYs, toProto_vecB hYs0, ← hdC, toBytes_encB hdC0, hGs, Res.err_bind]
    · obtain ⟨i, hi, hi0⟩ := List.mem_iff_getElem.1 h0
      have hi' : i < k := by simp at hi; omega
      refine ⟨i, hi', ?_⟩
      simp only [List.getElem_zipWith] at hi0
      by_contra hnd
      refine M.lawful.zsmul_ne ?_ (hs0 _ (List.getElem_mem _)) hi0
      have : dBs[i]'(by omega) = (d.betas i : Int) % dBetaB v := by simp [hdBs, drawP]
      rw [this]
      exact hnd
  right
  have hGs0 := (ecPoints_ok M.lawful hGs).1
  constructor
  · intro i hi hdv
    have e : (List.zipWith (· • ·) dBs sigs)[i]'(by simp; omega) = 0 := by
      simp only [List.getElem_zipWith]
      have e1 : dBs[i]'(by omega) = (d.betas i : Int) % dBetaB v := by simp [hdBs, drawP]
      rw [e1]
      obtain ⟨t, ht⟩ := hdv
      rw [ht, mul_comm, mul_smul, M.lawful.order_zsmul, smul_zero]
    exact hGs0 _ (List.getElem_mem (by simp; omega)) e
  obtain ⟨c, hc, hc0, hc1⟩ := M.responseChallenge_ok H pk hcm hcr hcb0 req resp
    ⟨vecB dYs, encB dC, m1Gs, m1Es⟩
  have hmb0 := maskL_nonneg hc0 hd0 hb0
  have hmx0 := maskL_nonneg hc0 hx0 K.nonneg
  have hmo0 : 0 ≤ dO + c * ((d.openBetas : Int) % n) := add_nonneg hdO0 (mul_nonneg hc0 hr0)
  refine ⟨resp, ⟨encB cb, encB c, vecB (maskL c dXs xs), vecB (maskL c dBs betas),
    encB (dO + c * ((d.openBetas : Int) % n))⟩, ?_, ?_, ?_⟩
  · unfold generateResponse
    rw [if_neg hgen0, hdec, Res.ok_bind]
    simp only [hall, hfst, List.length_map, List.length_range]
    rw [if_neg (by omega), ← hk, htake, hsign, if_pos hz]
    simp only [Res.ok_bind, hresp, hcb, toBytes_encB hcb0, M.betasBound_ok.1, drawList_ok hB,
      ← hdBs, P.hn, P.hlen, M.shift_t, drawList_ok hX, ← hdXs, randLessThan_eq _ hX, ← hdO,
      Gd.commit vd, hYs, toProto_vecB hYs0, toBytes_encB hdC0, hGs, hEs, hc, toBytes_encB hc0,
      mask_eq_maskL, toProto_vecB hmb0, P'.hxs, maskXs_ok hxl' hxl, toProto_vecB hmx0, mul_comm _ c,
      toBytes_encB hmo0, Res.pure_eq, ← hdC]
  · rw [hresp', hsigs, hbetas, List.map_map]
    rfl
  · have lb : (maskL c dBs betas).length = k := by rw [maskL_length (by omega), hlb]
    have lx : (maskL c dXs xs).length = ys.length := by rw [maskL_length (by omega), hxl]
    have hparse : req.cts.mapM (Cs.parseCiphertextProto v.cs) = .ok cts := by
      rw [R.proto]; exact Wf.parses P R.wf
    have hbnd : (maskL c dBs betas).any (fun b => decide (b ≥ dBetaB v * 2)) = false := by
      apply any_ge_false
      apply maskL_lt (D := dBetaB v) (X := (v.group.order : Int) ^ 3 * (2 ^ tBits v + 2))
        (hdl.trans hlb.symm) hc0 (fun x hx => (drawP_bounds hB x hx).2) hb0
      · intro x hx
        obtain ⟨i, hi, rfl⟩ := List.mem_map.1 hx
        exact R.bound i (by simpa using hi)
      · have hcl := M.chal_lt
        set T : Int := 2 ^ tBits v with hT
        set Q : Int := (v.group.order : Int) ^ 3 with hQ
        have hQ0 : 0 < Q := by positivity
        set C : Int := 2 ^ v.params.chal.toNat with hC
        have hC2 : 2 ≤ C := by
          have := M.chal0
          calc (2 : Int) = 2 ^ 1 := by norm_num
            _ ≤ C := pow_le_pow_right₀ (by norm_num) (by omega)
        have e : dBetaB v = T * T * Q := by
          unfold dBetaB
          rw [hT, hQ]; ring
        rw [e]
        have h1 : c * (T + 2) ≤ C * (T + 2) := mul_le_mul_of_nonneg_right hc1.le (by omega)
        have h2 : C * (T + 2) ≤ T * T := by nlinarith
        have h3 : c * (Q * (T + 2)) ≤ T * T * Q := by
          calc c * (Q * (T + 2)) = Q * (c * (T + 2)) := by ring
            _ ≤ Q * (T * T) := mul_le_mul_of_nonneg_left (by omega) hQ0.le
            _ = _ := by ring
        linarith
    have hgs : List.zipWith (fun (σ : G) (b : Int) => b • σ + -(c • v.base)) sigs
        (maskL c dBs betas) = List.zipWith (· • ·) dBs sigs := by
      apply List.ext_getElem
      · simp [lb, hls, hdl]
      · intro i h1 h2
        have hi : i < k := by simp at h2; omega
        have ib : i < betas.length := by omega
        simp only [List.getElem_zipWith, hsigs, List.getElem_map, maskL]
        rw [add_smul, mul_smul, M.smul_sigP (hz _ (List.getElem_mem ib))]
        abel
    have hREs : (List.range req.cts.length).mapM
        (recomputeEs v c k cts (maskL c dBs betas) (maskL c dXs xs)) = .ok m1Es := by
      apply mapM_eq_map
      intro i hi
      have hi : i < numCts k ys.length := by
        rw [← R.len]; rw [R.proto] at hi; simpa using hi
      exact M.recomputeEs_ok K R.len R.wf R.enc hβ hlb hb0 hdl hd0 hxl' hx0 hc0 hi
    have vm : Valid gs (maskL c dBs betas) (dO + c * ((d.openBetas : Int) % n)) :=
      ⟨by rw [lb]; exact R.num, hmb0, hmo0⟩
    have hun : unmask v.ped c (commitment gs h n (maskL c dBs betas)
        (dO + c * ((d.openBetas : Int) % n))) cb = .ok dC :=
      unmask_ok Gd hn hc0 (commitment_unit M.gsU M.hU _ _) (commitment_emod _ _)
        (commitment_mask hc0 (by omega) vd vb)
    unfold verifyResponse
    simp only [vecB_length, lx, lb, P.hlen, hlr]
    rw [if_neg (by simp [hk]), if_neg (by simp), if_neg (by simp [hk])]
    simp only [hparse, Res.ok_bind, hresp', ofBytes_encB hcb0, ofBytes_encB hc0, parse_vecB hmx0,
      parse_vecB hmb0, ofBytes_encB hmo0, M.betasBound_ok.2, hbnd]
    simp only [hgs, hGs, Res.ok_bind, ← hk, hREs, Gd.commit vm, hun, toBytes_encB hdC0]
    have hry := M.recomputeYs_ok K hxl' hx0 hc0
    rw [P.hlen] at hry
    simp only [hry, Res.ok_bind, ← hdYs, toProto_vecB hYs0, hc]
    simp

/-! ### What an honest request encrypts -/

theorem ctOk_congr {m m' : Nat → Int} {ct : CsCt} (h : Cs.CtOk N s xs m ct)
    (e : ∀ i < xs.length, m i = m' i) : Cs.CtOk N s xs m' ct :=
  ⟨h.1, h.2.1, fun i hi => e i hi ▸ h.2.2 i hi⟩

section
variable {cfg : ExpCfg} {pk : CsPublic}

theorem encP_ct (P : Cs.PubGood cfg pk N s g ys) (K : Cs.KeyRel N s g ys xs) {ms : List Int}
    {r : Int} (hms : ms.length ≤ ys.length) (hm0 : ∀ m ∈ ms, 0 ≤ m) (hr : 0 ≤ r)
    (hrn : RandOk N r) :
    Cs.CtOk N s xs (fun i => ms.getD i 0) (encP ((N : Int) ^ (s + 1)) N g ys ms r) := by
  obtain ⟨ct, h1, h2, _⟩ := Cs.encryptWithRand_spec P K hms hr hrn
  rw [encryptWithRand_ok P hms hm0 hr hrn] at h1
  cases h1
  exact h2

theorem addP_ct (P : Cs.PubGood cfg pk N s g ys) (hl : ys.length = xs.length) {m1 m2 : Nat → Int}
    {a b : CsCt} (ha : Cs.CtOk N s xs m1 a) (hb : Cs.CtOk N s xs m2 b) :
    Cs.CtOk N s xs (fun i => m1 i + m2 i) (addP ((N : Int) ^ (s + 1)) a b) := by
  obtain ⟨ct, h1, h2⟩ := Cs.add_spec P hl ha hb
  rw [add_ok P (by rw [ha.2.1, hl]) (by rw [hb.2.1, hl])] at h1
  cases h1
  exact h2

theorem mulP_ct (P : Cs.PubGood cfg pk N s g ys) (hl : ys.length = xs.length) {m : Nat → Int}
    {a : CsCt} (ha : Cs.CtOk N s xs m a) {k : Int} (hk : 0 ≤ k) :
    Cs.CtOk N s xs (fun i => m i * k) (mulP ((N : Int) ^ (s + 1)) a k) := by
  obtain ⟨ct, h1, h2⟩ := Cs.multiply_spec P hl ha hk
  rw [multiply_ok P (by rw [ha.2.1, hl]) hk] at h1
  cases h1
  exact h2

/-- Key ciphertext `j` holds the key in slot `j`. -/
theorem keyCt_ct (P : Cs.PubGood cfg pk N s g ys) (K : Cs.KeyRel N s g ys xs) {k : Int}
    (hk : 0 ≤ k) {draw : Nat → Int} (hd : DrawsOk N ys.length draw) {j : Nat} (hj : j < ys.length) :
    Cs.CtOk N s xs (fun i => if i = j then k else 0)
      ((keyCts ((N : Int) ^ (s + 1)) N g ys k draw).getD j default) := by
  unfold keyCts
  rw [getD_map_range _ _ hj]
  refine ctOk_congr (encP_ct P K (by rw [slot_length]) (slot_nonneg hk) (hd j hj).1
    (.inl (hd j hj).2)) ?_
  intro i _
  exact slot_getD _ hj i

theorem foldl_ct (P : Cs.PubGood cfg pk N s g ys) (K : Cs.KeyRel N s g ys xs) {k y : Int}
    (hk : 0 ≤ k) (hy : 0 ≤ y) {drawK drawY : Nat → Int} (hdk : DrawsOk N ys.length drawK)
    (hdy : DrawsOk N ys.length drawY) {as gammas : List Int} (ha : ∀ a ∈ as, 0 ≤ a)
    (hg : ∀ a ∈ gammas, 0 ≤ a) {start : Nat} {m : Nat → Int} {ct : CsCt}
    (h : Cs.CtOk N s xs m ct) : ∀ c : Nat, c ≤ ys.length →
    Cs.CtOk N s xs (fun j => m j + if j < c then
        k * as.getD (start + j) 0 + y * gammas.getD (start + j) 0 else 0)
      ((List.range c).foldl (homStepP ((N : Int) ^ (s + 1)) as gammas
        (keyCts ((N : Int) ^ (s + 1)) N g ys k drawK)
        (keyCts ((N : Int) ^ (s + 1)) N g ys y drawY) start) ct)
  | 0, _ => by
    refine ctOk_congr h ?_
    intro i _
    simp
  | c + 1, hc => by
    have ih := foldl_ct P K hk hy hdk hdy ha hg h c (by omega) (start := start)
    rw [List.range_succ, List.foldl_append, List.foldl_cons, List.foldl_nil]
    unfold homStepP
    refine ctOk_congr (addP_ct P K.len (addP_ct P K.len ih
      (mulP_ct P K.len (keyCt_ct P K hk hdk (j := c) (by omega)) (getD_nonneg ha (start + c))))
      (mulP_ct P K.len (keyCt_ct P K hy hdy (j := c) (by omega)) (getD_nonneg hg (start + c)))) ?_
    intro i _
    rcases lt_trichotomy i c with h1 | h1 | h1
    · rw [if_pos h1, if_neg (by omega), if_neg (by omega), if_pos (by omega)]; ring
    · subst h1
      rw [if_neg (by omega), if_pos rfl, if_pos rfl, if_pos (by omega)]; ring
    · rw [if_neg (by omega), if_neg (by omega), if_neg (by omega), if_neg (by omega)]; ring

end

/-- The value encrypted for message `i`. -/
def betaP (q : Int) (k y : Int) (w : Witness) (i : Nat) : Int :=
  (maskedMessages q w).getD i 0 + (k * w.as.getD i 0 + y * w.gammas.getD i 0)

theorem Made.request_enc (M : Made gs h n N s g ys v) (K : Cs.KeyRel N s g ys xs) {k y : Int}
    (hk : 0 ≤ k) (hy : 0 ≤ y) {drawK drawY : Nat → Int} (hdk : DrawsOk N ys.length drawK)
    (hdy : DrawsOk N ys.length drawY) {c : Nat} {w : Witness}
    (W : WitOk c (numCts c ys.length) w) (hr : ∀ r ∈ w.enc, RandOk N r) {i : Nat}
    (hi : i < numCts c ys.length) :
    Cs.CtOk N s xs (fun j => betaP v.group.order k y w (i * ys.length + j))
      (homCtP ((N : Int) ^ (s + 1)) N g ys (maskedMessages v.group.order w) w.as w.gammas w.enc
        (keyCts ((N : Int) ^ (s + 1)) N g ys k drawK)
        (keyCts ((N : Int) ^ (s + 1)) N g ys y drawY) i) := by
  obtain ⟨cfg, P⟩ := M.pub
  have hq := M.order
  obtain ⟨l1, n1⟩ := maskedMessages_ok (q := (v.group.order : Int)) (by omega) W
  unfold homCtP
  rw [l1]
  have hie : i < w.enc.length := by rw [W.enc.1]; exact hi
  have hbs : batchSize ys.length c i ≤ ys.length := by unfold batchSize; omega
  refine ctOk_congr (foldl_ct P K hk hy hdk hdy W.as.2 W.gammas.2
    (encP_ct P K (ms := ((maskedMessages (v.group.order : Int) w).drop (i * ys.length)).take
      (batchSize ys.length c i)) (by rw [batch_length l1]; exact hbs) (drop_take_nonneg n1 _ _)
      (getD_nonneg W.enc.2 i) (hr _ (getD_mem 0 hie))) _ hbs) ?_
  intro j hj
  unfold betaP
  by_cases h1 : j < batchSize ys.length c i
  · rw [if_pos h1, getD_drop_take h1]
  · have h2 : c ≤ i * ys.length + j := by
      have := K.len
      unfold batchSize at h1
      omega
    rw [if_neg h1, List.getD_eq_default _ _ (by rw [batch_length l1]; omega),
      List.getD_eq_default _ _ (by rw [l1]; exact h2),
      List.getD_eq_default _ _ (by rw [W.as.1]; exact h2),
      List.getD_eq_default _ _ (by rw [W.gammas.1]; exact h2)]
    ring

/-- The first component of the ciphertexts of a request is a power of the generator. -/
theorem homCtP_pow {M N g : Int} {ys ms as gammas rands : List Int} {k y : Int}
    {drawK drawY : Nat → Int} (i : Nat) :
    ∃ e : Nat, (homCtP M N g ys ms as gammas rands (keyCts M N g ys k drawK)
      (keyCts M N g ys y drawY) i).u ≡ g ^ e [ZMOD M] := by
  have hkey : ∀ (k : Int) (draw : Nat → Int) (j : Nat), j < ys.length →
      ∃ e : Nat, ((keyCts M N g ys k draw).getD j default).u ≡ g ^ e [ZMOD M] := by
    intro k draw j hj
    unfold keyCts
    rw [getD_map_range _ _ hj]
    exact ⟨_, Int.mod_modEq _ _⟩
  have hstep : ∀ (c : Nat) (ct : CsCt), c ≤ ys.length → (∃ e : Nat, ct.u ≡ g ^ e [ZMOD M]) →
      ∃ e : Nat, ((List.range c).foldl (homStepP M as gammas (keyCts M N g ys k drawK)
        (keyCts M N g ys y drawY) (i * ys.length)) ct).u ≡ g ^ e [ZMOD M] := by
    intro c
    induction c with
    | zero => intro ct _ h; simpa using h
    | succ c ih =>
      intro ct hc h
      rw [List.range_succ, List.foldl_append, List.foldl_cons, List.foldl_nil]
      obtain ⟨e1, h1⟩ := ih ct (by omega) h
      obtain ⟨e2, h2⟩ := hkey k drawK c (by omega)
      obtain ⟨e3, h3⟩ := hkey y drawY c (by omega)
      unfold homStepP addP mulP
      dsimp only
      refine ⟨e1 + e2 * (as.getD (i * ys.length + c) 0).toNat +
        e3 * (gammas.getD (i * ys.length + c) 0).toNat, ?_⟩
      rw [pow_add, pow_add, pow_mul, pow_mul]
      exact (Int.mod_modEq _ _).trans (((Int.mod_modEq _ _).trans
        (h1.mul ((Int.mod_modEq _ _).trans (h2.pow _)))).mul ((Int.mod_modEq _ _).trans (h3.pow _)))
  unfold homCtP
  exact hstep _ _ (by unfold batchSize; omega) ⟨_, Int.mod_modEq _ _⟩

theorem zipWith_getD {f : Int → Int → Int} {as bs : List Int} {i : Nat} (h1 : i < as.length)
    (h2 : i < bs.length) : (List.zipWith f as bs).getD i 0 = f (as.getD i 0) (bs.getD i 0) :=
  getD_zipWith h1 h2

theorem Made.request_reqOk (M : Made gs h n N s g ys v) (K : Cs.KeyRel N s g ys xs) {k y : Int}
    (hk : 0 ≤ k) (hkq : k < v.group.order) (hy : 0 ≤ y) (hyq : y < v.group.order)
    {drawK drawY : Nat → Int} (hdk : DrawsOk N ys.length drawK)
    (hdy : DrawsOk N ys.length drawY) {c : Nat} (hg : c ≤ gs.length) {w : Witness}
    (W : WitOk c (numCts c ys.length) w)
    (B : SecBound v.group.order (2 ^ tBits v) w) (hr : ∀ r ∈ w.enc, RandOk N r) :
    let p := prepP v gs h n N s g ys (keyCts ((N : Int) ^ (s + 1)) N g ys k drawK)
        (keyCts ((N : Int) ^ (s + 1)) N g ys y drawY) w
    ReqOk v gs N s ys xs (reqP p) p.cts (betaP v.group.order k y w) := by
  intro p
  have hq := M.order
  have U := M.units
  obtain ⟨l1, n1⟩ := maskedMessages_ok (q := (v.group.order : Int)) (by omega) W
  have hnum : (reqP p).num = c := W.messages.1
  have hlen : p.cts.length = numCts c ys.length := by simp [p, prepP, ctsP, W.messages.1]
  refine ⟨by rw [hnum]; exact hg, rfl, by rw [hnum]; exact hlen,
    ctsP_wf U (keyCts_wf U k drawK) (keyCts_wf U y drawY) (keyCts_length ..) (keyCts_length ..) w,
    ?_, ?_, ?_, ?_⟩
  · intro i hi
    rw [hlen] at hi
    have e : p.cts.getD i default = homCtP ((N : Int) ^ (s + 1)) N g ys
        (maskedMessages v.group.order w) w.as w.gammas w.enc
        (keyCts ((N : Int) ^ (s + 1)) N g ys k drawK)
        (keyCts ((N : Int) ^ (s + 1)) N g ys y drawY) i := by
      show (ctsP _ _ _ _ _ _ _ _).getD i default = _
      unfold ctsP
      rw [getD_map_range _ _ (by rw [W.messages.1]; exact hi)]
    rw [e]
    exact M.request_enc K hk hy hdk hdy W hr hi
  · intro i _
    unfold betaP
    have a1 := getD_nonneg n1 i
    have a2 := mul_nonneg hk (getD_nonneg W.as.2 i)
    have a3 := mul_nonneg hy (getD_nonneg W.gammas.2 i)
    omega
  · intro i hi
    rw [hnum] at hi
    unfold betaP maskedMessages
    rw [zipWith_getD (by rw [W.alphas.1]; exact hi) (by rw [W.bs.1]; exact hi)]
    have a0 := getD_nonneg W.as.2 i
    have g0 := getD_nonneg W.gammas.2 i
    have al := B.alphas _ (getD_mem 0 (show i < w.alphas.length by rw [W.alphas.1]; exact hi))
    have bb := B.bs _ (getD_mem 0 (show i < w.bs.length by rw [W.bs.1]; exact hi))
    have aa := B.as _ (getD_mem 0 (show i < w.as.length by rw [W.as.1]; exact hi))
    have ga := B.gammas _ (getD_mem 0 (show i < w.gammas.length by rw [W.gammas.1]; exact hi))
    set q : Int := (v.group.order : Int) with hqd
    set T : Int := 2 ^ tBits v with hT
    have e1 : w.bs.getD i 0 * q ≤ q * q * T * q := mul_le_mul_of_nonneg_right bb (by omega)
    have e2 : k * w.as.getD i 0 ≤ q * q := mul_le_mul hkq.le aa a0 (by omega)
    have e3 : y * w.gammas.getD i 0 ≤ q * (q * q) := mul_le_mul hyq.le ga g0 (by omega)
    have e4 : 2 * (q * q) ≤ q * (q * q) := mul_le_mul_of_nonneg_right hq (by positivity)
    have e5 : q ^ 3 * (T + 2) = q * q * T * q + q * (q * q) + q * (q * q) := by ring
    rw [e5]
    linarith
  · intro ct hct
    obtain ⟨cfg, P⟩ := M.pub
    rw [P.hg]
    obtain ⟨i, _, rfl⟩ := List.mem_map.1 hct
    exact homCtP_pow i

/-- The encrypted value is `a (m + k + y r)` modulo the group order. -/
theorem Made.beta_secret (_M : Made gs h n N s g ys v) {ms rs : List Int} {om orr : Int}
    (hl : rs.length = ms.length) (d : ReqDraws) (L : Nat) (k y : Int) {i : Nat}
    (hi : i < ms.length) :
    betaP v.group.order k y (secretP v n N L ms rs om orr d) i ≡
      aOf v (d.a i) * (ms.getD i 0 + k + y * rs.getD i 0) [ZMOD v.group.order] := by
  have ha : ((List.range ms.length).map (fun i => aOf v (d.a i))).getD i 0 = aOf v (d.a i) :=
    getD_map_range _ _ hi
  unfold betaP maskedMessages secretP
  dsimp only
  rw [zipWith_getD (by simp [hi]) (by rw [drawP_length]; exact hi), zipWith_getD hi (by simp [hi]),
    zipWith_getD (by omega) (by simp [hi]), ha]
  apply Int.modEq_iff_dvd.2
  refine ⟨-(drawP ms.length ((v.group.order : Int) * v.group.order * 2 ^ tBits v) d.b).getD i 0, ?_⟩
  ring

theorem Made.aOf_ndvd (M : Made gs h n N s g ys v) (w : Nat) :
    ¬ (v.group.order : Int) ∣ aOf v w := by
  obtain ⟨_, h1, h2⟩ := M.aOf_ok w
  intro hd
  have := Int.le_of_dvd (by omega) hd
  omega

end PJC.Bb
