import Verif.Lemmas.BbSound
set_option linter.unusedSectionVars false
/-!
What acceptance of an oblivious-signature request proof means.
-/

namespace PJC.Bb
open Res PJC.DJ PJC.Ped PJC.Props Finset

/-- Component `u` of an encoded ciphertext of a list. -/
def ctU (l : List CsCtProto) (i : Nat) : Int := BN.ofBytes (l.getD i ⟨[], []⟩).u

/-- Component `e_j` of an encoded ciphertext of a list. -/
def ctE (l : List CsCtProto) (i j : Nat) : Int := numAt (l.getD i ⟨[], []⟩).es j

theorem toProto_numAt {l : List Int} {bs : List Bytes} (h : bigNumVectorToProto l = .ok bs) :
    bs.length = l.length ∧ ∀ i < l.length, numAt bs i = l.getD i 0 := by
  obtain ⟨h1, h2⟩ := mapM_list_ok h 0 []
  exact ⟨h1, fun i hi => (toBytes_eq_ok (h2 i hi)).2⟩

theorem multiplyLoop_len {k m : Int} : ∀ {n : Nat} {es r : List Int},
    Cs.multiplyLoop k m n es = .ok r → n ≤ es.length
  | 0, _, _, _ => Nat.zero_le _
  | n + 1, [], _, h => by simp [Cs.multiplyLoop] at h
  | n + 1, e :: es, r, h => by
    simp only [Cs.multiplyLoop, Res.bind_eq_ok] at h
    obtain ⟨v, _, rest, hr, _⟩ := h
    have := multiplyLoop_len hr
    simpa using this

/-- A division of ciphertexts that succeeded. -/
theorem unmaskCt_sound {cfg : ExpCfg} {pk : CsPublic} {N s : Nat} {g : Int} {ys : List Int}
    (P : Cs.PubGood cfg pk N s g ys) {c : Int} (hc : 0 ≤ c) {a b D : CsCt}
    (hb : b.es.length ≤ ys.length) (h : unmaskCt pk c a b = .ok D) :
    b.es.length = ys.length ∧ a.es.length = ys.length ∧ D.es.length = ys.length ∧
      Lin ((N : Int) ^ (s + 1)) ys.length c.toNat D b a := by
  have hM := modulus_pos P
  unfold unmaskCt at h
  simp only [Res.bind_eq_ok] at h
  obtain ⟨pw, hpw, u, hu, es, hes, hadd⟩ := h
  have hb' : b.es.length = ys.length := by
    have h2 := hpw
    unfold Cs.multiply at h2
    simp only [Res.bind_eq_ok] at h2
    obtain ⟨_, _, l, hl, _⟩ := h2
    have := multiplyLoop_len hl
    rw [P.hlen] at this
    omega
  rw [multiply_ok P hb' hc] at hpw
  cases hpw
  obtain ⟨les, hes⟩ := mapM_list_ok hes 0 0
  have les' : es.length = ys.length := by rw [les]; simp [mulP, hb']
  have ha : a.es.length = ys.length := by
    have h2 := hadd
    unfold Cs.add at h2
    split at h2
    · cases h2
    rename_i h3
    push Not at h3
    dsimp only at h3
    omega
  rw [add_ok P ha les'] at hadd
  cases hadd
  refine ⟨hb', ha, by simp [addP, ha, les'], ?_, ?_⟩
  · rw [P.hmod] at hu
    exact recover_sound hu (by simp only [addP]; rw [mul_comm])
  · intro i hi
    have := hes i (by simp [mulP, hb', hi])
    simp only [mulP] at this
    rw [getD_map (by omega), P.hmod] at this
    refine recover_sound this ?_
    simp only [addP]
    rw [getD_zipWith (by omega) (by omega), mul_comm]

/-! ### The ciphertexts as products -/

theorem homCtP_products {M N g : Int} {ys ms as gammas rands : List Int} {ks yks : List CsCt}
    (hk : ks.length = ys.length) (hy : yks.length = ys.length)
    (lk : ∀ k ∈ ks, k.es.length = ys.length) (ly : ∀ k ∈ yks, k.es.length = ys.length) (i : Nat) :
    (homCtP M N g ys ms as gammas rands ks yks i).es.length = ys.length ∧
    (homCtP M N g ys ms as gammas rands ks yks i).u ≡ g ^ (rands.getD i 0).toNat *
      ∏ t ∈ range (batchSize ys.length ms.length i),
        ((ks.getD t default).u ^ (as.getD (i * ys.length + t) 0).toNat *
          (yks.getD t default).u ^ (gammas.getD (i * ys.length + t) 0).toNat) [ZMOD M] ∧
    ∀ j < ys.length, (homCtP M N g ys ms as gammas rands ks yks i).es.getD j 0 ≡
      ys.getD j 0 ^ (rands.getD i 0).toNat * (1 + N) ^
        (((ms.drop (i * ys.length)).take (batchSize ys.length ms.length i)).getD j 0).toNat *
      ∏ t ∈ range (batchSize ys.length ms.length i),
        ((ks.getD t default).es.getD j 0 ^ (as.getD (i * ys.length + t) 0).toNat *
          (yks.getD t default).es.getD j 0 ^ (gammas.getD (i * ys.length + t) 0).toNat)
        [ZMOD M] := by
  have hstep : ∀ (c : Nat) (ct : CsCt), c ≤ ys.length → ct.es.length = ys.length →
      ∀ R, R = (List.range c).foldl (homStepP M as gammas ks yks (i * ys.length)) ct →
      R.es.length = ys.length ∧ R.u ≡ ct.u * ∏ t ∈ range c,
        ((ks.getD t default).u ^ (as.getD (i * ys.length + t) 0).toNat *
          (yks.getD t default).u ^ (gammas.getD (i * ys.length + t) 0).toNat) [ZMOD M] ∧
      ∀ j < ys.length, R.es.getD j 0 ≡ ct.es.getD j 0 * ∏ t ∈ range c,
        ((ks.getD t default).es.getD j 0 ^ (as.getD (i * ys.length + t) 0).toNat *
          (yks.getD t default).es.getD j 0 ^ (gammas.getD (i * ys.length + t) 0).toNat)
        [ZMOD M] := by
    intro c
    induction c with
    | zero =>
      rintro ct _ hct R rfl
      simp [hct, Int.ModEq.refl]
    | succ c ih =>
      rintro ct hc hct R rfl
      rw [List.range_succ, List.foldl_append, List.foldl_cons, List.foldl_nil]
      obtain ⟨i1, i2, i3⟩ := ih ct (by omega) hct _ rfl
      set R := (List.range c).foldl (homStepP M as gammas ks yks (i * ys.length)) ct
      have k1 := lk _ (getD_mem default (show c < ks.length by omega))
      have y1 := ly _ (getD_mem default (show c < yks.length by omega))
      unfold homStepP addP mulP
      dsimp only
      refine ⟨by simp only [List.length_zipWith, List.length_map, i1, k1, y1, min_self], ?_, ?_⟩
      · rw [prod_range_succ, ← mul_assoc, ← mul_assoc]
        exact (Int.mod_modEq _ _).trans (((Int.mod_modEq _ _).trans
          (i2.mul (Int.mod_modEq _ _))).mul (Int.mod_modEq _ _))
      · intro j hj
        rw [getD_zipWith (by simp only [List.length_zipWith, List.length_map, i1, k1, min_self, hj])
            (by simp only [List.length_map, y1, hj]),
          getD_zipWith (by rw [i1]; exact hj) (by simp only [List.length_map, k1, hj]), getD_map (by omega),
          getD_map (by omega), prod_range_succ, ← mul_assoc, ← mul_assoc]
        exact (Int.mod_modEq _ _).trans (((Int.mod_modEq _ _).trans
          ((i3 j hj).mul (Int.mod_modEq _ _))).mul (Int.mod_modEq _ _))
  obtain ⟨h1, h2, h3⟩ := hstep (batchSize ys.length ms.length i)
    (encP M N g ys ((ms.drop (i * ys.length)).take (batchSize ys.length ms.length i))
      (rands.getD i 0)) (by unfold batchSize; omega) (by simp [encP]) _ rfl
  refine ⟨h1, h2.trans ((Int.mod_modEq _ _).mul_right _), fun j hj => (h3 j hj).trans ?_⟩
  simp only [encP]
  rw [getD_map_range _ _ hj]
  exact (Int.mod_modEq _ _).mul_right _

/-! ### Acceptance -/

variable {G : Type} [AddCommGroup G] [DecidableEq G]
variable {gs : List Int} {h n : Int} {N s : Nat} {g : Int} {ys xs : List Int} {v : BbSig G}

/-- What an accepted request proof `p` for the request `req` establishes relative to the first
message `m` of the proof.  With `c` the challenge, `z` the masked values in the proof, `L` the
number of slots and `t` the sum of challenge length and security parameter:
* sizes: `num` values of every kind, `⌈num / L⌉` ciphertexts of `L` components;
* ranges: all masked messages and masks are below `2^(t+1) q`, the masked `b` below
  `2^(2t+1) q^2`, the masked products below `2^(t+1) q^2`;
* the commitments to the masked values are the commitments of the first message times the `c`-th
  powers of the commitments given;
* the same for the two products `h^o2 ∏ commitAs_i^m_i` and `h^o2 ∏ commitAs_i^r_i`;
* the ciphertexts made from the masked values and the encrypted keys are those of the first
  message times the `c`-th powers of those in the request, component by component;
* the challenge is the hash of the statement and this first message. -/
structure ReqAccepted (H : Hashes) (gs : List Int) (h n : Int) (N s : Nat) (g : Int)
    (ys : List Int) (v : BbSig G) (pk : BbPublicKey) (req : BbRequest) (p : BbReqProof)
    (cm cr : Int) (m : BbReqMessage1) : Prop where
  num : req.num ≤ gs.length
  commitAsLen : p.commitAs.length = req.num
  messagesLen : p.message2.messages.length = req.num
  rsLen : p.message2.rs.length = req.num
  asLen : p.message2.as.length = req.num
  asOpenLen : req.num ≤ p.message2.asOpen.length
  bsLen : p.message2.bs.length = req.num
  alphasLen : p.message2.alphas.length = req.num
  gammasLen : p.message2.gammas.length = req.num
  ctsLen : req.cts.length = (req.num + ys.length - 1) / ys.length
  encLen : p.message2.enc.length = (req.num + ys.length - 1) / ys.length
  cts : ∀ ct ∈ req.cts, ct.es.length = ys.length ∧ BN.ofBytes ct.u < (N : Int) ^ (s + 1) ∧
    ∀ e ∈ ct.es, BN.ofBytes e < (N : Int) ^ (s + 1)
  encRand : ∀ i < req.cts.length, Int.gcd (numAt p.message2.enc i) N = 1 ∨
    numAt p.message2.enc i = 0
  messagesRange : ∀ i < req.num, numAt p.message2.messages i <
    2 ^ (v.params.chal + v.params.sec + 1).toNat * (v.group.order : Int)
  asRange : ∀ i < req.num, numAt p.message2.as i <
    2 ^ (v.params.chal + v.params.sec + 1).toNat * (v.group.order : Int)
  bsRange : ∀ i < req.num, numAt p.message2.bs i <
    2 ^ (2 * (v.params.chal + v.params.sec) + 1).toNat * (v.group.order : Int) ^ 2
  alphasRange : ∀ i < req.num, numAt p.message2.alphas i <
    2 ^ (v.params.chal + v.params.sec + 1).toNat * (v.group.order : Int) ^ 2
  gammasRange : ∀ i < req.num, numAt p.message2.gammas i <
    2 ^ (v.params.chal + v.params.sec + 1).toNat * (v.group.order : Int) ^ 2
  messages : Ped.commitment gs h n (p.message2.messages.map BN.ofBytes)
      (BN.ofBytes p.message2.messagesOpen) ≡
    BN.ofBytes m.messages * cm ^ (BN.ofBytes p.challenge).toNat [ZMOD n]
  rs : Ped.commitment gs h n (p.message2.rs.map BN.ofBytes) (BN.ofBytes p.message2.rsOpen) ≡
    BN.ofBytes m.rs * cr ^ (BN.ofBytes p.challenge).toNat [ZMOD n]
  as : ∀ i < req.num, gs.getD i 0 ^ (numAt p.message2.as i).toNat *
      h ^ (numAt p.message2.asOpen i).toNat ≡
    numAt m.as i * numAt p.commitAs i ^ (BN.ofBytes p.challenge).toNat [ZMOD n]
  bs : Ped.commitment gs h n (p.message2.bs.map BN.ofBytes) (BN.ofBytes p.message2.bsOpen) ≡
    BN.ofBytes m.bs * BN.ofBytes p.commitBs ^ (BN.ofBytes p.challenge).toNat [ZMOD n]
  alphas1 : Ped.commitment gs h n (p.message2.alphas.map BN.ofBytes)
      (BN.ofBytes p.message2.alphasOpen1) ≡
    BN.ofBytes m.alphas1 * BN.ofBytes p.commitAlphas ^ (BN.ofBytes p.challenge).toNat [ZMOD n]
  alphas2 : h ^ (BN.ofBytes p.message2.alphasOpen2).toNat *
      ∏ i ∈ range req.num, numAt p.commitAs i ^ (numAt p.message2.messages i).toNat ≡
    BN.ofBytes m.alphas2 * BN.ofBytes p.commitAlphas ^ (BN.ofBytes p.challenge).toNat [ZMOD n]
  gammas1 : Ped.commitment gs h n (p.message2.gammas.map BN.ofBytes)
      (BN.ofBytes p.message2.gammasOpen1) ≡
    BN.ofBytes m.gammas1 * BN.ofBytes p.commitGammas ^ (BN.ofBytes p.challenge).toNat [ZMOD n]
  gammas2 : h ^ (BN.ofBytes p.message2.gammasOpen2).toNat *
      ∏ i ∈ range req.num, numAt p.commitAs i ^ (numAt p.message2.rs i).toNat ≡
    BN.ofBytes m.gammas2 * BN.ofBytes p.commitGammas ^ (BN.ofBytes p.challenge).toNat [ZMOD n]
  ctsU : ∀ i < req.cts.length, g ^ (numAt p.message2.enc i).toNat *
      ∏ t ∈ range (min ys.length (req.num - i * ys.length)),
        (ctU pk.encK t ^ (numAt p.message2.as (i * ys.length + t)).toNat *
          ctU pk.encY t ^ (numAt p.message2.gammas (i * ys.length + t)).toNat) ≡
    ctU m.cts i * ctU req.cts i ^ (BN.ofBytes p.challenge).toNat [ZMOD (N : Int) ^ (s + 1)]
  ctsE : ∀ i < req.cts.length, ∀ j < ys.length, ys.getD j 0 ^ (numAt p.message2.enc i).toNat *
      (1 + (N : Int)) ^ (if i * ys.length + j < req.num then
        numAt p.message2.alphas (i * ys.length + j) +
          numAt p.message2.bs (i * ys.length + j) * v.group.order else 0).toNat *
      ∏ t ∈ range (min ys.length (req.num - i * ys.length)),
        (ctE pk.encK t j ^ (numAt p.message2.as (i * ys.length + t)).toNat *
          ctE pk.encY t j ^ (numAt p.message2.gammas (i * ys.length + t)).toNat) ≡
    ctE m.cts i j * ctE req.cts i j ^ (BN.ofBytes p.challenge).toNat [ZMOD (N : Int) ^ (s + 1)]
  challenge : ∃ bm br, BN.toBytes cm = .ok bm ∧ BN.toBytes cr = .ok br ∧
    requestChallenge H v ⟨v.params, pk, bm, br, p.commitAs, p.commitBs, p.commitAlphas,
      p.commitGammas, req⟩ m = .ok (BN.ofBytes p.challenge)

theorem requestSizes_sound (hl : v.cs.len ≠ 0) {req : BbRequest} {p : BbReqProof}
    (hs : requestSizes v req p = .ok ()) : SizesOk v req p := by
  have := sat_requestSizes (req := req) (p := p) hl
  exact this.2 _ hs

/-- The masked values with one opening per message. -/
def trim (k : Nat) (w : Witness) : Witness := { w with asOpen := w.asOpen.take k }

theorem parse_witOk {req : BbRequest} {p : BbReqProof} (S : SizesOk v req p)
    (ho : req.num ≤ p.message2.asOpen.length) :
    WitOk req.num (numCts req.num v.cs.len) (trim req.num p.message2.parse) := by
  have L : ∀ {l : List Bytes} {k : Nat}, l.length = k → (parseBigNumVectorProto l).length = k ∧
      ∀ x ∈ parseBigNumVectorProto l, 0 ≤ x := fun h1 => ⟨by rw [parse_length, h1], parse_nonneg _⟩
  refine ⟨L S.messages, L S.rs, L S.as, ⟨?_, ?_⟩, L S.bs, L S.alphas, L S.gammas, L S.enc,
    BN.ofBytes_nonneg _, BN.ofBytes_nonneg _, BN.ofBytes_nonneg _, BN.ofBytes_nonneg _,
    BN.ofBytes_nonneg _, BN.ofBytes_nonneg _, BN.ofBytes_nonneg _⟩
  · simp only [trim, BbReqMessage2.parse, List.length_take, parse_length]
    omega
  · intro x hx
    exact parse_nonneg _ x (List.mem_of_mem_take hx)

theorem mapM_congr {α β : Type} {f g : α → Res β} : ∀ {l : List α}, (∀ a ∈ l, f a = g a) →
    l.mapM f = l.mapM g
  | [], _ => rfl
  | a :: l, h => by
    rw [List.mapM_cons, List.mapM_cons, h a (by simp),
      mapM_congr (fun b hb => h b (by simp [hb]))]

theorem commitments_trim {ped : Pedersen} {cas : List Int} {w : Witness} {x} {k : Nat}
    (hk : cas.length = k) (hx : commitments ped cas w = .ok x) :
    k ≤ w.asOpen.length ∧ commitments ped cas (trim k w) = .ok x := by
  have hA : ∃ l, (List.range cas.length).mapM (commitAt ped w.as w.asOpen) = .ok l := by
    unfold commitments at hx
    simp only [Res.bind_eq_ok] at hx
    obtain ⟨_, _, _, _, l, hl, _⟩ := hx
    exact ⟨l, hl⟩
  obtain ⟨l, hl⟩ := hA
  obtain ⟨_, h2⟩ := mapM_range_ok hl 0
  have hi : ∀ i < cas.length, i < w.asOpen.length := by
    intro i hi
    have := h2 i hi
    unfold commitAt at this
    simp only [Res.bind_eq_ok] at this
    obtain ⟨_, _, _, ho, _⟩ := this
    exact (idx_inv ho 0).1
  have hle : k ≤ w.asOpen.length := by
    rcases Nat.eq_zero_or_pos k with h0 | h0
    · omega
    · have := hi (k - 1) (by omega)
      omega
  refine ⟨hle, ?_⟩
  have e : (List.range cas.length).mapM (commitAt ped w.as w.asOpen) =
      (List.range cas.length).mapM (commitAt ped w.as (w.asOpen.take k)) := by
    apply mapM_congr
    intro i hi'
    have hi' : i < cas.length := by simpa using hi'
    unfold commitAt idx
    rw [List.getElem?_take, if_pos (by omega)]
  rw [← hx]
  unfold commitments trim
  dsimp only
  rw [e]

theorem range_of_any {l : List Bytes} {b : Int}
    (hb : ¬ (parseBigNumVectorProto l).any (fun x => decide (x ≥ b)) = true) {i : Nat}
    (hi : i < l.length) : numAt l i < b := by
  simp only [List.any_eq_true, decide_eq_true_eq, not_exists, not_and] at hb
  have := hb _ (getD_mem 0 (by rw [parse_length]; exact hi : i < (parseBigNumVectorProto l).length))
  rw [parse_getD hi] at this
  omega

theorem prodOfPowers_range : ∀ {cs es : List Int}, es.length = cs.length →
    prodOfPowers cs es = ∏ i ∈ range cs.length, cs.getD i 0 ^ (es.getD i 0).toNat
  | [], es, h => by simp [prodOfPowers]
  | c :: cs, [], h => by simp at h
  | c :: cs, e :: es, h => by
    have := prodOfPowers_range (cs := cs) (es := es) (by simpa using h)
    unfold prodOfPowers at *
    rw [List.length_cons, prod_range_succ', List.zipWith_cons_cons, List.prod_cons, this, mul_comm]
    simp

theorem parse_prod {cs es : List Bytes} {k : Nat} (h1 : cs.length = k) (h2 : es.length = k) :
    prodOfPowers (parseBigNumVectorProto cs) (parseBigNumVectorProto es) =
      ∏ i ∈ range k, numAt cs i ^ (numAt es i).toNat := by
  rw [prodOfPowers_range (by rw [parse_length, parse_length, h1, h2]), parse_length, h1]
  apply prod_congr rfl
  intro i hi
  have hi : i < k := by simpa using hi
  rw [parse_getD (by omega), parse_getD (by omega)]

theorem keys_numAt {M : Int} {L : Nat} {l : List CsCt} (wl : ∀ k ∈ l, Wf M L k)
    (ll : l.length = L) {t : Nat} (ht : t < L) : ctU (l.map ctB) t = (l.getD t default).u ∧
    ∀ j < L, ctE (l.map ctB) t j = (l.getD t default).es.getD j 0 := by
  have W := wl _ (getD_mem default (show t < l.length by omega))
  have e : (l.map ctB).getD t ⟨[], []⟩ = ctB (l.getD t default) := by
    simp [List.getD_eq_getElem?_getD, show t < l.length by omega]
  unfold ctU ctE
  rw [e]
  exact ⟨ofBytes_encB W.u0, fun j hj => numAt_vecB (fun e he => (W.es e he).1)
    (by rw [W.len]; exact hj)⟩

/-- The ciphertext of the masked values, in terms of the serialized numbers. -/
theorem masked_products {M N g q : Int} (hq : 0 ≤ q) {ys : List Int} {ks yks : List CsCt}
    (wks : ∀ k ∈ ks, Wf M ys.length k) (wyks : ∀ k ∈ yks, Wf M ys.length k)
    (lk : ks.length = ys.length) (ly : yks.length = ys.length) {num : Nat} {w : Witness}
    {m2 : BbReqMessage2} (W : WitOk num (numCts num ys.length) w) (ew : w = trim num m2.parse)
    {i : Nat} (hi : i < numCts num ys.length) :
    g ^ (numAt m2.enc i).toNat * ∏ t ∈ range (min ys.length (num - i * ys.length)),
        (ctU (ks.map ctB) t ^ (numAt m2.as (i * ys.length + t)).toNat *
          ctU (yks.map ctB) t ^ (numAt m2.gammas (i * ys.length + t)).toNat) ≡
      (homCtP M N g ys (maskedMessages q w) w.as w.gammas w.enc ks yks i).u [ZMOD M] ∧
    ∀ j < ys.length, ys.getD j 0 ^ (numAt m2.enc i).toNat *
      (1 + N) ^ (if i * ys.length + j < num then numAt m2.alphas (i * ys.length + j) +
          numAt m2.bs (i * ys.length + j) * q else 0).toNat *
      ∏ t ∈ range (min ys.length (num - i * ys.length)),
        (ctE (ks.map ctB) t j ^ (numAt m2.as (i * ys.length + t)).toNat *
          ctE (yks.map ctB) t j ^ (numAt m2.gammas (i * ys.length + t)).toNat) ≡
      (homCtP M N g ys (maskedMessages q w) w.as w.gammas w.enc ks yks i).es.getD j 0 [ZMOD M] := by
  obtain ⟨l1, n1⟩ := maskedMessages_ok hq W
  have hmul := homCtP_products (M := M) (N := N) (g := g) (ys := ys)
    (ms := maskedMessages q w) (as := w.as) (gammas := w.gammas) (rands := w.enc)
    (ks := ks) (yks := yks) lk ly (fun k hk => (wks k hk).len) (fun k hk => (wyks k hk).len) i
  have lv : ∀ l : List Bytes, ∀ k, (parseBigNumVectorProto l).length = k → l.length = k := by
    intro l k h
    rwa [parse_length] at h
  have he : m2.enc.length = numCts num ys.length := lv m2.enc _ (by have := W.enc.1; rw [ew] at this; exact this)
  have ha : m2.as.length = num := lv m2.as _ (by have := W.as.1; rw [ew] at this; exact this)
  have hg : m2.gammas.length = num := lv m2.gammas _ (by have := W.gammas.1; rw [ew] at this; exact this)
  have hal : m2.alphas.length = num := lv m2.alphas _ (by have := W.alphas.1; rw [ew] at this; exact this)
  have hbs : m2.bs.length = num := lv m2.bs _ (by have := W.bs.1; rw [ew] at this; exact this)
  have e1 : w.enc = parseBigNumVectorProto m2.enc := by rw [ew]; rfl
  have e2 : w.as = parseBigNumVectorProto m2.as := by rw [ew]; rfl
  have e3 : w.gammas = parseBigNumVectorProto m2.gammas := by rw [ew]; rfl
  have e4 : w.alphas = parseBigNumVectorProto m2.alphas := by rw [ew]; rfl
  have e5 : w.bs = parseBigNumVectorProto m2.bs := by rw [ew]; rfl
  constructor
  · refine Int.ModEq.trans (meq_of_eq ?_) hmul.2.1.symm
    rw [e1, parse_getD (by omega), l1]
    congr 1
    apply prod_congr rfl
    intro t ht
    have ht : t < batchSize ys.length num i := by simpa [batchSize] using ht
    have ht' : t < ys.length := by unfold batchSize at ht; omega
    have htk : i * ys.length + t < num := by unfold batchSize at ht; omega
    rw [(keys_numAt wks lk ht').1, (keys_numAt wyks ly ht').1, e2, e3,
      parse_getD (by omega), parse_getD (by omega)]
  · intro j hj
    refine Int.ModEq.trans (meq_of_eq ?_) (hmul.2.2 j hj).symm
    rw [e1, parse_getD (by omega), l1]
    congr 1
    · congr 3
      by_cases hjk : i * ys.length + j < num
      · rw [if_pos hjk, getD_drop_take (by unfold batchSize; omega)]
        unfold maskedMessages
        rw [zipWith_getD (by rw [W.alphas.1]; exact hjk) (by rw [W.bs.1]; exact hjk), e4, e5,
          parse_getD (by omega), parse_getD (by omega)]
      · rw [if_neg hjk, List.getD_eq_default]
        rw [batch_length l1]
        unfold batchSize
        omega
    · apply prod_congr rfl
      intro t ht
      have ht : t < batchSize ys.length num i := by simpa [batchSize] using ht
      have ht' : t < ys.length := by unfold batchSize at ht; omega
      have htk : i * ys.length + t < num := by unfold batchSize at ht; omega
      rw [(keys_numAt wks lk ht').2 j hj, (keys_numAt wyks ly ht').2 j hj, e2, e3,
        parse_getD (by omega), parse_getD (by omega)]

/-- The first message that verification recomputes (bb_oblivious_signature.cc:646-1090, without the
checks and the hash). -/
def reqFirst (v : BbSig G) (pk : BbPublicKey) (req : BbRequest) (p : BbReqProof) (cm cr : Int) :
    Res BbReqMessage1 := do
  let cts ← req.cts.mapM (Cs.parseCiphertextProto v.cs)
  let masked ← commitments v.ped (parseBigNumVectorProto p.commitAs) p.message2.parse
  let keys ← parseKeys v.cs pk
  let maskedCts ← ciphertexts v keys.1 keys.2 p.message2.parse
  let dummy ← recompute v p cm cr cts masked maskedCts
  dummy.toProto

/-- Acceptance of a request proof. -/
theorem Made.request_accepted (M : Made gs h n N s g ys v) {H : Hashes} {ks yks : List CsCt}
    {req : BbRequest} {p : BbReqProof} {cm cr : Int}
    (K : KeyOk v N s ys ⟨ks.map ctB, yks.map ctB⟩ ks yks)
    (hv : verifyRequest H v ⟨ks.map ctB, yks.map ctB⟩ req p cm cr = .ok ()) :
    ∃ m, reqFirst v ⟨ks.map ctB, yks.map ctB⟩ req p cm cr = .ok m ∧
      ReqAccepted H gs h n N s g ys v ⟨ks.map ctB, yks.map ctB⟩ req p cm cr m := by
  obtain ⟨cfg, P⟩ := M.pub
  have hM := modulus_pos P
  have hL := M.len0
  have hn := M.n0
  have Gd := M.good
  have hq := M.order
  unfold verifyRequest at hv
  simp only [Res.bind_eq_ok] at hv
  obtain ⟨_, hsz, bm, hbm, br, hbr, cts, hcts, _, hbd, masked, hmasked, keys, hkeys, mcts, hmcts,
    D, hD, m1, hm1, c', hc', hv⟩ := hv
  split at hv
  · cases hv
  rename_i hcc
  push Not at hcc
  subst hcc
  have hfirst : reqFirst v ⟨ks.map ctB, yks.map ctB⟩ req p cm cr = .ok m1 := by
    simp only [reqFirst, hcts, hmasked, hkeys, hmcts, hD, hm1, Res.ok_bind]
  have S := requestSizes_sound (by rw [P.hlen]; omega) hsz
  rw [K.parse] at hkeys
  cases hkeys
  have Snum : req.num ≤ gs.length := by rw [← Gd.gs_eq]; exact S.num
  obtain ⟨ho, hmasked⟩ := commitments_trim (k := req.num) (by rw [parse_length, S.commitAs]) hmasked
  replace ho : req.num ≤ p.message2.asOpen.length := by
    simpa only [BbReqMessage2.parse, parse_length] using ho
  have W := parse_witOk S ho
  rw [commitments_ok Gd hn W Snum (by rw [parse_length, S.commitAs])] at hmasked
  cases hmasked
  have hnc : numCts req.num v.cs.len = numCts req.num ys.length := by rw [P.hlen]
  rw [hnc] at W
  set w := trim req.num p.message2.parse with hw
  obtain ⟨l1, n1⟩ := maskedMessages_ok (q := (v.group.order : Int)) (by omega) W
  have hmcts' : homCts v.cs (maskedMessages v.group.order w) w.as w.gammas w.enc ks yks = .ok mcts :=
    hmcts
  rw [homCts_ok P M.units M.ysne K.wks K.wyks K.lk K.ly n1 W.as.2 W.gammas.2 W.enc.2
    (by rw [l1, W.as.1]) (by rw [l1, W.gammas.1]) (by rw [l1, W.enc.1])] at hmcts'
  split at hmcts'
  swap
  · cases hmcts'
  rename_i hrand
  simp only [Res.ok.injEq] at hmcts'
  set c := BN.ofBytes p.challenge with hcd
  have hc0 : 0 ≤ c := BN.ofBytes_nonneg _
  unfold recompute at hD
  simp only [Res.bind_eq_ok, Res.pure_eq, Res.ok.injEq] at hD
  obtain ⟨x1, h1, x2, h2, x3, h3, x4, h4, x5, h5, x6, h6, x7, h7, x8, h8, x9, h9, rfl⟩ := hD
  unfold Composites.toProto at hm1
  simp only [Res.bind_eq_ok, Res.pure_eq, Res.ok.injEq] at hm1
  obtain ⟨b1, g1, b2, g2, b3, g3, b4, g4, b5, g5, b6, g6, b7, g7, b8, g8, b9, g9, rfl⟩ := hm1
  obtain ⟨-, h1⟩ := unmask_sound Gd.n_eq hn hc0 h1
  obtain ⟨-, h2⟩ := unmask_sound Gd.n_eq hn hc0 h2
  obtain ⟨-, h4⟩ := unmask_sound Gd.n_eq hn hc0 h4
  obtain ⟨-, h5⟩ := unmask_sound Gd.n_eq hn hc0 h5
  obtain ⟨-, h6⟩ := unmask_sound Gd.n_eq hn hc0 h6
  obtain ⟨-, h7⟩ := unmask_sound Gd.n_eq hn hc0 h7
  obtain ⟨-, h8⟩ := unmask_sound Gd.n_eq hn hc0 h8
  obtain ⟨l3, h3⟩ := mapM_list_ok h3 (0, 0) 0
  obtain ⟨l9, h9⟩ := mapM_list_ok h9 (default, default) default
  obtain ⟨lcts, hct⟩ := mapM_list_ok hcts ⟨[], []⟩ (default : CsCt)
  obtain ⟨lg9, g9⟩ := mapM_list_ok g9 default ⟨[], []⟩
  obtain ⟨lg3, g3⟩ := toProto_numAt g3
  have lz3 : ((comAsP gs h n w.as w.asOpen (parseBigNumVectorProto p.commitAs).length).zip
      (parseBigNumVectorProto p.commitAs)).length = req.num := by
    simp [comAsP, parse_length, S.commitAs]
  have hml : mcts.length = numCts req.num ys.length := by rw [← hmcts']; simp [l1]
  have Scts : req.cts.length = numCts req.num ys.length := by rw [S.cts, P.hlen]
  have Senc : p.message2.enc.length = numCts req.num ys.length := by rw [S.enc, P.hlen]
  have lz9 : (mcts.zip cts).length = numCts req.num ys.length := by
    rw [List.length_zip, hml, lcts, Scts, min_self]
  have hdiv : ∀ i < req.cts.length, (req.cts.getD i ⟨[], []⟩).es.length = ys.length ∧
      (x9.getD i default).es.length = ys.length ∧
      Lin ((N : Int) ^ (s + 1)) ys.length c.toNat (x9.getD i default) (cts.getD i default)
        (mcts.getD i default) := by
    intro i hi
    have hz := h9 i (by rw [lz9]; omega)
    have ez : (mcts.zip cts).getD i (default, default) = (mcts.getD i default, cts.getD i default) := by
      rw [List.getD_eq_getElem _ _ (by rw [lz9]; omega), List.getElem_zip,
        List.getD_eq_getElem _ _ (by omega), List.getD_eq_getElem _ _ (by omega)]
    rw [ez] at hz
    have hpc := hct i hi
    obtain ⟨_, hes⟩ := parseCt_eq hpc
    have hle : (cts.getD i default).es.length ≤ ys.length := by
      unfold Cs.parseCiphertextProto at hpc
      dsimp only at hpc
      split at hpc
      · cases hpc
      split at hpc
      · cases hpc
      rename_i hlen
      rw [P.hlen] at hlen
      rw [hes]
      omega
    obtain ⟨q1, _, q3, q4⟩ := unmaskCt_sound P hc0 hle hz
    refine ⟨?_, q3, q4⟩
    rw [hes, parse_length] at q1
    exact q1
  have hcom : ∀ i < req.cts.length, ctU b9 i = (x9.getD i default).u ∧
      (∀ j < ys.length, ctE b9 i j = (x9.getD i default).es.getD j 0) ∧
      ctU req.cts i = (cts.getD i default).u ∧
      ∀ j < ys.length, ctE req.cts i j = (cts.getD i default).es.getD j 0 := by
    intro i hi
    obtain ⟨q1, q2, _⟩ := hdiv i hi
    have hg := g9 i (by omega)
    unfold Cs.ciphertextToProto at hg
    simp only [Res.bind_eq_ok, Res.pure_eq, Res.ok.injEq] at hg
    obtain ⟨bu, hbu, be, hbe, hg⟩ := hg
    obtain ⟨e1, e2⟩ := parseCt_eq (hct i hi)
    refine ⟨?_, ?_, e1.symm, ?_⟩
    · unfold ctU
      rw [← hg]
      exact (toBytes_eq_ok hbu).2
    · intro j hj
      unfold ctE
      rw [← hg]
      exact (toProto_numAt hbe).2 j (by omega)
    · intro j hj
      unfold ctE
      rw [e2, parse_getD (by omega)]
  have hmi : ∀ i < req.cts.length, mcts.getD i default = homCtP ((N : Int) ^ (s + 1)) N g ys
      (maskedMessages v.group.order w) w.as w.gammas w.enc ks yks i := by
    intro i hi
    rw [← hmcts', getD_map_range _ _ (by rw [l1]; omega)]
  have ew : w.enc = parseBigNumVectorProto p.message2.enc := rfl
  have ea : w.as = parseBigNumVectorProto p.message2.as := rfl
  have eg : w.gammas = parseBigNumVectorProto p.message2.gammas := rfl
  -- the ranges
  unfold requestBounds at hbd
  dsimp only at hbd
  rw [M.shift_t1, Res.ok_bind, M.shift_2t1, Res.ok_bind] at hbd
  split at hbd
  · cases hbd
  rename_i hbd'
  simp only [not_or] at hbd'
  obtain ⟨r1, r2, r3, r4, r5⟩ := hbd'
  have et : (v.params.chal + v.params.sec + 1).toNat = tBits v + 1 := by
    unfold tBits
    have := M.chal0
    have := M.sec0
    omega
  have e2t : (2 * (v.params.chal + v.params.sec) + 1).toNat = 2 * tBits v + 1 := by
    unfold tBits
    have := M.chal0
    have := M.sec0
    omega
  refine ⟨⟨b1, b2, b3, b4, b5, b6, b7, b8, b9⟩, hfirst, Snum, S.commitAs, S.messages, S.rs, S.as, ho, S.bs,
    S.alphas, S.gammas, Scts, Senc, ?_, ?_, ?_, ?_, ?_, ?_, ?_, ?_, ?_, ?_, ?_, ?_, ?_, ?_, ?_, ?_, ?_,
    ⟨bm, br, hbm, hbr, hc'⟩⟩
  · intro ct hct'
    obtain ⟨i, hi, rfl⟩ := List.mem_iff_getElem.1 hct'
    have h1 := (hdiv i hi).1
    have h2 := hct i hi
    rw [List.getD_eq_getElem _ _ hi] at h1 h2
    refine ⟨h1, ?_⟩
    unfold Cs.parseCiphertextProto at h2
    dsimp only at h2
    split at h2
    · cases h2
    rename_i hu
    split at h2
    · cases h2
    split at h2
    · cases h2
    rename_i hes
    rw [P.hmod] at hu hes
    refine ⟨by omega, ?_⟩
    intro e he
    simp only [List.any_eq_true, not_exists, not_and, decide_eq_true_eq] at hes
    have := hes (BN.ofBytes e) (List.mem_map.2 ⟨e, he, rfl⟩)
    omega
  · intro i hi
    have := hrand _ (getD_mem 0 (by rw [W.enc.1]; omega : i < w.enc.length))
    rw [show w.enc = parseBigNumVectorProto p.message2.enc from rfl, parse_getD (by omega)] at this
    exact this
  · intro i hi
    rw [et, mul_comm]
    exact range_of_any r1 (by rw [S.messages]; exact hi)
  · intro i hi
    rw [et, mul_comm]
    exact range_of_any r2 (by rw [S.as]; exact hi)
  · intro i hi
    rw [e2t, mul_comm, pow_two]
    exact range_of_any r3 (by rw [S.bs]; exact hi)
  · intro i hi
    have := range_of_any r4 (i := i) (by rw [S.alphas]; exact hi)
    rw [et]
    refine this.trans_eq ?_
    ring
  · intro i hi
    have := range_of_any r5 (i := i) (by rw [S.gammas]; exact hi)
    rw [et]
    refine this.trans_eq ?_
    ring
  · dsimp only
    rw [(toBytes_eq_ok g1).2]
    exact h1
  · dsimp only
    rw [(toBytes_eq_ok g2).2]
    exact h2
  · intro i hi
    dsimp only
    have hz := h3 i (lt_of_lt_of_eq hi lz3.symm)
    have ez : ((comAsP gs h n w.as w.asOpen (parseBigNumVectorProto p.commitAs).length).zip
        (parseBigNumVectorProto p.commitAs)).getD i (0, 0) =
        (comAtP gs h n w.as w.asOpen i, numAt p.commitAs i) := by
      rw [List.getD_eq_getElem _ _ (by rw [lz3]; exact hi), List.getElem_zip]
      congr 1
      · simp [comAsP]
      · rw [← parse_getD (by rw [S.commitAs]; exact hi), List.getD_eq_getElem]
    have hz' : unmask v.ped c (comAtP gs h n w.as w.asOpen i) (numAt p.commitAs i) =
        .ok (x3.getD i 0) := by
      have := hz
      rw [show ((comP gs h n (parseBigNumVectorProto p.commitAs) w).2.2.1.zip
        (parseBigNumVectorProto p.commitAs)).getD i (0, 0) = _ from ez] at this
      exact this
    obtain ⟨-, hz'⟩ := unmask_sound Gd.n_eq hn hc0 hz'
    rw [g3 i (lt_of_lt_of_eq hi (l3.trans lz3).symm)]
    refine Int.ModEq.trans ?_ hz'
    unfold comAtP commitment
    rw [prodOfPowers_slot _ _ _ (by omega), ea, parse_getD (by rw [S.as]; exact hi)]
    have eo : w.asOpen.getD i 0 = numAt p.message2.asOpen i := by
      rw [← parse_getD (by omega)]
      show ((parseBigNumVectorProto p.message2.asOpen).take req.num).getD i 0 = _
      simp [List.getD_eq_getElem?_getD, List.getElem?_take, hi]
    rw [eo]
    exact (Int.mod_modEq _ _).symm
  · dsimp only
    rw [(toBytes_eq_ok g4).2]
    exact h4
  · dsimp only
    rw [(toBytes_eq_ok g5).2]
    exact h5
  · dsimp only
    rw [(toBytes_eq_ok g6).2]
    refine Int.ModEq.trans ?_ h6
    refine Int.ModEq.trans ?_ (accP_modEq (n := n)).symm
    rw [show w.messages = parseBigNumVectorProto p.message2.messages from rfl,
      parse_prod S.commitAs S.messages]
    apply Int.ModEq.mul_right
    unfold commitment
    rw [prodOfPowers_zeros, one_mul]
    exact (Int.mod_modEq _ _).symm
  · dsimp only
    rw [(toBytes_eq_ok g7).2]
    exact h7
  · dsimp only
    rw [(toBytes_eq_ok g8).2]
    refine Int.ModEq.trans ?_ h8
    refine Int.ModEq.trans ?_ (accP_modEq (n := n)).symm
    rw [show w.rs = parseBigNumVectorProto p.message2.rs from rfl,
      parse_prod S.commitAs S.rs]
    apply Int.ModEq.mul_right
    unfold commitment
    rw [prodOfPowers_zeros, one_mul]
    exact (Int.mod_modEq _ _).symm
  · intro i hi
    dsimp only
    obtain ⟨c1, -, c3, -⟩ := hcom i hi
    obtain ⟨-, -, lin⟩ := hdiv i hi
    rw [c1, c3]
    refine Int.ModEq.trans ?_ lin.u
    rw [hmi i hi]
    exact (masked_products (by omega) K.wks K.wyks K.lk K.ly W hw (by omega)).1
  · intro i hi j hj
    dsimp only
    obtain ⟨-, c2, -, c4⟩ := hcom i hi
    obtain ⟨-, -, lin⟩ := hdiv i hi
    rw [c2 j hj, c4 j hj]
    refine Int.ModEq.trans ?_ (lin.es j hj)
    rw [hmi i hi]
    exact (masked_products (by omega) K.wks K.wyks K.lk K.ly W hw (by omega)).2 j hj

/-- Two relations with the same first message give the relation of the difference. -/
theorem diff_of_two {m D C z z' : Int} {c c' : Nat} (hcc : c' ≤ c) (h1 : z ≡ D * C ^ c [ZMOD m])
    (h2 : z' ≡ D * C ^ c' [ZMOD m]) : C ^ (c - c') * z' ≡ z [ZMOD m] := by
  refine Int.ModEq.trans (h2.mul_left _) (Int.ModEq.trans (meq_of_eq ?_) h1.symm)
  conv_rhs => rw [show c = (c - c') + c' by omega, pow_add]
  ring

/-- The value the masked exponents stand for. -/
def betaZ (q k y : Int) (num : Nat) (m2 : BbReqMessage2) (t : Nat) : Int :=
  if t < num then numAt m2.alphas t + numAt m2.bs t * q + k * numAt m2.as t +
    y * numAt m2.gammas t else 0

theorem ReqAccepted.sizesOk (M : Made gs h n N s g ys v) {H : Hashes} {pk : BbPublicKey}
    {req : BbRequest} {p : BbReqProof} {cm cr : Int} {m : BbReqMessage1}
    (A : ReqAccepted H gs h n N s g ys v pk req p cm cr m) : SizesOk v req p := by
  obtain ⟨cfg, P⟩ := M.pub
  refine ⟨by rw [M.good.gs_eq]; exact A.num, A.commitAsLen, A.messagesLen, A.rsLen, A.asLen,
    A.bsLen, A.alphasLen, A.gammasLen, ?_, ?_⟩
  · rw [P.hlen]; exact A.ctsLen
  · rw [P.hlen]; exact A.encLen

theorem Made.masked_ct (M : Made gs h n N s g ys v) (K : Cs.KeyRel N s g ys xs) {k y : Int}
    (hk : 0 ≤ k) (hy : 0 ≤ y) {drawK drawY : Nat → Int} (hdk : DrawsOk N ys.length drawK)
    (hdy : DrawsOk N ys.length drawY) {H : Hashes} {req : BbRequest} {p : BbReqProof}
    {cm cr : Int} {m : BbReqMessage1}
    (A : ReqAccepted H gs h n N s g ys v ⟨(keyCts ((N : Int) ^ (s + 1)) N g ys k drawK).map ctB,
      (keyCts ((N : Int) ^ (s + 1)) N g ys y drawY).map ctB⟩ req p cm cr m) {i : Nat}
    (hi : i < req.cts.length) :
    ∃ X, Cs.CtOk N s xs (fun j => betaZ v.group.order k y req.num p.message2 (i * ys.length + j))
        X ∧
      X.u ≡ ctU m.cts i * ctU req.cts i ^ (BN.ofBytes p.challenge).toNat
        [ZMOD (N : Int) ^ (s + 1)] ∧
      ∀ j < ys.length, X.es.getD j 0 ≡
        ctE m.cts i j * ctE req.cts i j ^ (BN.ofBytes p.challenge).toNat
        [ZMOD (N : Int) ^ (s + 1)] := by
  obtain ⟨cfg, P⟩ := M.pub
  have hq := M.order
  have U := M.units
  have W := parse_witOk (A.sizesOk M) A.asOpenLen
  rw [P.hlen] at W
  have hi' : i < numCts req.num ys.length := by rw [← show _ = numCts _ _ from A.ctsLen]; exact hi
  set w := trim req.num p.message2.parse with hw
  have hrand : ∀ r ∈ w.enc, RandOk N r := by
    intro r hr
    obtain ⟨t, ht, rfl⟩ := List.mem_iff_getElem.1 hr
    have htl : t < p.message2.enc.length := by
      have : w.enc.length = p.message2.enc.length := parse_length _
      omega
    have e : w.enc[t] = numAt p.message2.enc t := by
      rw [← parse_getD htl, List.getD_eq_getElem _ _ (by rw [parse_length]; exact htl)]
      rfl
    rw [e]
    exact A.encRand t (by rw [A.ctsLen, ← A.encLen]; exact htl)
  have X := M.request_enc K hk hy hdk hdy W hrand hi'
  obtain ⟨p1, p2⟩ := masked_products (N := N) (g := g) (q := v.group.order) (by omega)
    (keyCts_wf U k drawK)
    (keyCts_wf U y drawY) (keyCts_length ..) (keyCts_length ..) W hw hi'
  refine ⟨_, ctOk_congr X ?_, p1.symm.trans (A.ctsU i hi),
    fun j hj => (p2 j hj).symm.trans (A.ctsE i hi j hj)⟩
  intro j hj
  unfold betaP betaZ
  obtain ⟨l1, n1⟩ := maskedMessages_ok (q := (v.group.order : Int)) (by omega) W
  by_cases hjk : i * ys.length + j < req.num
  · rw [if_pos hjk]
    unfold maskedMessages
    rw [zipWith_getD (by rw [W.alphas.1]; exact hjk) (by rw [W.bs.1]; exact hjk),
      show w.alphas = parseBigNumVectorProto p.message2.alphas from rfl,
      show w.bs = parseBigNumVectorProto p.message2.bs from rfl,
      show w.as = parseBigNumVectorProto p.message2.as from rfl,
      show w.gammas = parseBigNumVectorProto p.message2.gammas from rfl,
      parse_getD (by rw [A.alphasLen]; exact hjk), parse_getD (by rw [A.bsLen]; exact hjk),
      parse_getD (by rw [A.asLen]; exact hjk), parse_getD (by rw [A.gammasLen]; exact hjk)]
    ring
  · have h2 : req.num ≤ i * ys.length + j := by omega
    rw [if_neg hjk, List.getD_eq_default _ _ (by rw [l1]; exact h2),
      List.getD_eq_default _ _ (by rw [W.as.1]; exact h2),
      List.getD_eq_default _ _ (by rw [W.gammas.1]; exact h2)]
    ring

theorem comp_quot {u v e f x a b : Int} (hN : 1 < N) (hv : IsCoprime v (N : Int))
    (h1 : Cs.Comp N s (u * v) (e * f) x a) (h2 : Cs.Comp N s v f x b) :
    Cs.Comp N s u e x (a - b) := by
  obtain ⟨A, a1, a2⟩ := h1
  obtain ⟨B, b1, b2⟩ := h2
  set p := N ^ s with hp
  have hp0 : 0 < p := by positivity
  -- an exponent that inverts (1 + N) ^ B
  set B' := p * B - B with hB'
  have hBle : B ≤ p * B := Nat.le_mul_of_pos_left _ hp0
  have hone : (1 + (N : Int)) ^ (B + B') ≡ 1 [ZMOD (N : Int) ^ (s + 1)] := by
    have : B + B' ≡ 0 [MOD N ^ s] := by
      rw [show B + B' = N ^ s * B by rw [← hp]; omega]
      exact (Nat.modEq_zero_iff_dvd.2 ⟨B, rfl⟩)
    simpa using DJ.one_add_pow_period N N dvd_rfl s this
  have hc : Int.gcd (v ^ x.toNat) ((N : Int) ^ (s + 1)) = 1 :=
    Int.isCoprime_iff_gcd_eq_one.1 (hv.pow_left.pow_right)
  refine ⟨A + B', ?_, ?_⟩
  · have : (B' : Int) ≡ -B [ZMOD (N : Int) ^ s] := by
      have e : (B' : Int) = (N : Int) ^ s * B - B := by
        rw [hB', Nat.cast_sub hBle, hp]; push_cast; ring
      rw [e, Int.modEq_iff_dvd]
      exact ⟨-B, by ring⟩
    push_cast
    refine (a1.add (this.trans b1.neg)).trans (meq_of_eq ?_)
    ring
  · apply modEq_cancel hc
    calc e * v ^ x.toNat ≡ e * v ^ x.toNat * (1 + (N : Int)) ^ (B + B') [ZMOD (N : Int) ^ (s + 1)] := by
          simpa using (hone.symm.mul_left (e * v ^ x.toNat))
      _ = e * ((1 + (N : Int)) ^ B * v ^ x.toNat) * (1 + (N : Int)) ^ B' := by rw [pow_add]; ring
      _ ≡ e * f * (1 + (N : Int)) ^ B' [ZMOD (N : Int) ^ (s + 1)] :=
          (b2.symm.mul_left e).mul_right _
      _ ≡ (1 + (N : Int)) ^ A * (u * v) ^ x.toNat * (1 + (N : Int)) ^ B'
          [ZMOD (N : Int) ^ (s + 1)] := a2.mul_right _
      _ = (1 + (N : Int)) ^ (A + B') * u ^ x.toNat * v ^ x.toNat := by
          rw [pow_add, mul_pow]; ring

/-- Two accepted request proofs with the same first message: the power `c - c'` of every ciphertext
of the request decrypts to the differences of the values the masked exponents stand for. -/
theorem Made.request_decrypts (M : Made gs h n N s g ys v) {sk : CsPrivate}
    (S : Priv N s g ys xs sk) {k y : Int}
    (hk : 0 ≤ k) (hy : 0 ≤ y) {drawK drawY : Nat → Int} (hdk : DrawsOk N ys.length drawK)
    (hdy : DrawsOk N ys.length drawY) {H H' : Hashes} {req : BbRequest} {p p' : BbReqProof}
    {cm cr : Int} {m : BbReqMessage1}
    (A : ReqAccepted H gs h n N s g ys v ⟨(keyCts ((N : Int) ^ (s + 1)) N g ys k drawK).map ctB,
      (keyCts ((N : Int) ^ (s + 1)) N g ys y drawY).map ctB⟩ req p cm cr m)
    (A' : ReqAccepted H' gs h n N s g ys v ⟨(keyCts ((N : Int) ^ (s + 1)) N g ys k drawK).map ctB,
      (keyCts ((N : Int) ^ (s + 1)) N g ys y drawY).map ctB⟩ req p' cm cr m)
    (hcc : BN.ofBytes p'.challenge ≤ BN.ofBytes p.challenge) {i : Nat} (hi : i < req.cts.length) :
    ∃ ct ct', Cs.parseCiphertextProto v.cs (req.cts.getD i ⟨[], []⟩) = .ok ct ∧
      Cs.multiply v.cs ct (BN.ofBytes p.challenge - BN.ofBytes p'.challenge) = .ok ct' ∧
      Cs.decrypt sk ct' = .ok ((List.range ys.length).map fun j =>
        (betaZ v.group.order k y req.num p.message2 (i * ys.length + j) -
          betaZ v.group.order k y req.num p'.message2 (i * ys.length + j)) % (N : Int) ^ s) := by
  obtain ⟨cfg, P⟩ := M.pub
  have K := S.rel
  obtain ⟨cfg', Sk⟩ := S.sk
  have hN : 1 < N := M.N1
  obtain ⟨l1, l2, l3⟩ := A.cts _ (getD_mem ⟨[], []⟩ hi)
  set pr := req.cts.getD i ⟨[], []⟩ with hpr
  set ct : CsCt := ⟨BN.ofBytes pr.u, parseBigNumVectorProto pr.es⟩ with hctd
  set c := BN.ofBytes p.challenge with hcd
  set c' := BN.ofBytes p'.challenge with hcd'
  have hc0 : 0 ≤ c := BN.ofBytes_nonneg _
  have hc0' : 0 ≤ c' := BN.ofBytes_nonneg _
  have hd0 : 0 ≤ c - c' := by omega
  have hparse : Cs.parseCiphertextProto v.cs pr = .ok ct := by
    unfold Cs.parseCiphertextProto
    dsimp only
    rw [P.hmod, if_neg (by have := BN.ofBytes_nonneg pr.u; omega),
      if_neg (by rw [P.hlen, parse_length, l1]; omega), if_neg]
    simp only [List.any_eq_true, not_exists, not_and, decide_eq_true_eq]
    intro e he
    obtain ⟨b, hb, rfl⟩ := List.mem_map.1 he
    have := l3 b hb
    have := BN.ofBytes_nonneg b
    omega
  have hel : ct.es.length = ys.length := by rw [hctd]; dsimp only; rw [parse_length, l1]
  refine ⟨ct, _, hparse, multiply_ok P hel hd0, ?_⟩
  obtain ⟨X, ⟨u1, w1, q1⟩, x1, x2⟩ := M.masked_ct K hk hy hdk hdy A hi
  obtain ⟨X', ⟨u2, w2, q2⟩, x1', x2'⟩ := M.masked_ct K hk hy hdk hdy A' hi
  have ecc : c.toNat - c'.toNat = (c - c').toNat := by omega
  have d1 := diff_of_two (c := c.toNat) (c' := c'.toNat) (by omega) x1 x1'
  have e1 : ct.u = ctU req.cts i := rfl
  rw [ecc, ← e1] at d1
  have hd2 : ∀ j < ys.length, ct.es.getD j 0 ^ (c - c').toNat * X'.es.getD j 0 ≡ X.es.getD j 0
      [ZMOD (N : Int) ^ (s + 1)] := by
    intro j hj
    have := diff_of_two (c := c.toNat) (c' := c'.toNat) (by omega) (x2 j hj) (x2' j hj)
    rw [ecc] at this
    rw [show ct.es.getD j 0 = ctE req.cts i j from parse_getD (by rw [l1]; exact hj)]
    exact this
  have hU : IsCoprime (ct.u ^ (c - c').toNat) (N : Int) := by
    have h0 : IsCoprime (ct.u ^ (c - c').toNat * X'.u) (N : Int) := by
      have e : ct.u ^ (c - c').toNat * X'.u ≡ X.u [ZMOD (N : Int)] :=
        Int.ModEq.of_dvd (dvd_pow_self _ (by omega)) d1
      have h1 := Int.isCoprime_iff_gcd_eq_one.1 u1
      rw [Int.isCoprime_iff_gcd_eq_one, ← gcd_emod_left, e, gcd_emod_left]
      exact h1
    exact h0.of_mul_left_left
  have hok : Cs.CtOk N s xs (fun j =>
      betaZ v.group.order k y req.num p.message2 (i * ys.length + j) -
        betaZ v.group.order k y req.num p'.message2 (i * ys.length + j))
      (mulP ((N : Int) ^ (s + 1)) ct (c - c')) := by
    refine ⟨?_, ?_, ?_⟩
    · show IsCoprime (ct.u ^ (c - c').toNat % (N : Int) ^ (s + 1)) (N : Int)
      have e : ct.u ^ (c - c').toNat % (N : Int) ^ (s + 1) ≡ ct.u ^ (c - c').toNat
          [ZMOD (N : Int)] := Int.ModEq.of_dvd (dvd_pow_self _ (by omega)) (Int.mod_modEq _ _)
      rw [Int.isCoprime_iff_gcd_eq_one, ← gcd_emod_left, e, gcd_emod_left]
      exact Int.isCoprime_iff_gcd_eq_one.1 hU
    · show (List.map _ ct.es).length = _
      rw [List.length_map, hel, K.len]
    · intro j hj
      have hj' : j < ys.length := by rw [K.len]; exact hj
      have h1 := (q1 j hj).congr d1 (hd2 j hj')
      refine (comp_quot hN u2 h1 (q2 j hj)).congr (Int.mod_modEq _ _) ?_
      show (List.map (fun e => e ^ (c - c').toNat % (N : Int) ^ (s + 1)) ct.es).getD j 0 ≡ _ [ZMOD _]
      rw [getD_map (by rw [hel]; exact hj')]
      exact Int.mod_modEq _ _
  rw [Cs.decrypt_spec Sk K.nonneg hok, ← K.len]

end PJC.Bb
