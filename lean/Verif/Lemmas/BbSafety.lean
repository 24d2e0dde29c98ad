import Verif.Lemmas.BbResponse
import Verif.Lemmas.Sat

/-!
Request verification on arbitrary protos.
-/

namespace PJC.Bb
open Res

variable {G : Type} [AddCommGroup G] [DecidableEq G]
variable {gs : List Int} {h n : Int} {N s : Nat} {g : Int} {ys : List Int} {v : BbSig G}

theorem sat_toBytes {a : Int} (ha : 0 ≤ a) : (BN.toBytes a).Sat (fun _ => True) :=
  sat_eq (BN.toBytes_of_nonneg ha) trivial

theorem sat_bigNumVectorToProto {l : List Int} (hl : ∀ a ∈ l, 0 ≤ a) :
    (bigNumVectorToProto l).Sat (fun _ => True) := by
  unfold bigNumVectorToProto
  exact (sat_mapM (fun a ha => sat_toBytes (hl a ha))).mono (fun _ _ => trivial)

theorem sat_modExp {a e m : Int} (he : 0 ≤ e) (hm : 0 < m) :
    (BN.modExp a e m).Sat (fun x => 0 ≤ x) :=
  sat_eq (modExp_ok he (by omega)) (Int.emod_nonneg _ (by omega))

theorem sat_modMul {a b m : Int} (hm : 0 < m) : (BN.modMul a b m).Sat (fun x => 0 ≤ x) :=
  sat_eq (modMul_ok (by omega)) (Int.emod_nonneg _ (by omega))

theorem sat_modInverse (a m : Int) : (BN.modInverse a m).Sat (fun x => 0 ≤ x) := by
  cases hi : BN.modInverse a m with
  | ok x =>
    obtain ⟨_, _, _, h2, _⟩ := BN.modInverse_eq_ok hi
    exact sat_ok h2
  | err c => exact sat_err
  | crash => unfold BN.modInverse at hi; split at hi <;> cases hi
  | ub => unfold BN.modInverse at hi; split at hi <;> cases hi

theorem sat_commit {p : Pedersen} (hG : Ped.Good p gs h n) (hn : 0 < n) (ms : List Int) (r : Int) :
    (Ped.commitWithRand p ms r).Sat (fun x => 0 ≤ x) := by
  by_cases hv : Ped.Valid gs ms r
  · exact sat_eq (hG.commit hv) (Ped.commitment_nonneg hn _ _)
  · rw [(hG.refuse hv 0).1]
    exact sat_err

theorem sat_idx {α : Type} {l : List α} {i : Nat} {P : α → Prop} (hi : i < l.length)
    (hp : ∀ a ∈ l, P a) : (idx l i).Sat P := by
  unfold idx
  rw [List.getElem?_eq_getElem hi]
  exact sat_ok (hp _ (List.getElem_mem hi))

/-- A ciphertext with all components, none negative. -/
def Full (L : Nat) (ct : CsCt) : Prop := ct.es.length = L ∧ 0 ≤ ct.u ∧ ∀ e ∈ ct.es, 0 ≤ e

theorem sat_csMultiply {pk : CsPublic} {L : Nat} (hL : pk.len = L) (hm : 0 < pk.modulus) {ct : CsCt}
    (hc : ct.es.length = L) {k : Int} (hk : 0 ≤ k) : (Cs.multiply pk ct k).Sat (Full L) := by
  unfold Cs.multiply
  refine (sat_modExp hk hm).bind fun u hu => ?_
  rw [Cs.multiplyLoop_spec hk hm _ _ (by omega)]
  refine sat_ok ⟨by simp; omega, hu, ?_⟩
  intro e he
  simp only [List.mem_map] at he
  obtain ⟨x, _, rfl⟩ := he
  exact Int.emod_nonneg _ (by omega)

theorem sat_csAdd {pk : CsPublic} {L : Nat} (hL : pk.len = L) (hm : 0 < pk.modulus) {a b : CsCt}
    (ha : a.es.length = L) (hb : b.es.length = L) : (Cs.add pk a b).Sat (Full L) := by
  unfold Cs.add
  rw [if_neg (by omega), if_neg (by omega)]
  refine (sat_modMul hm).bind fun u hu => ?_
  refine (sat_mapM (P := fun x => 0 ≤ x) (fun e _ => sat_modMul hm)).bind fun es hes => ?_
  refine sat_pure ⟨?_, hu, hes.2⟩
  rw [hes.1]
  simp [ha, hb]

theorem sat_csEncrypt {cfg : ExpCfg} {pk : CsPublic} (hP : Cs.PubGood cfg pk N s g ys) (ms : List Int)
    (r : Int) : (Cs.encryptWithRand pk ms r).Sat (Full ys.length) := by
  have hpos : (0 : Int) < N := by have := hP.npos; omega
  have hps1 : (0 : Int) < (N : Int) ^ (s + 1) := pow_pos hpos _
  unfold Cs.encryptWithRand
  split
  · exact sat_err
  split
  · exact sat_err
  rename_i h1 h2
  have hr : 0 ≤ r := by
    by_contra h3
    exact h2 (Or.inl (by omega))
  obtain ⟨es, e1, e2, e4, -⟩ := Cs.encLoop_spec hP hr ys pk.ysFbe ms hP.ysF
  rw [FixedBaseExp.modExp_spec hps1 hP.gF hr, Res.ok_bind, e1, Res.ok_bind]
  exact sat_pure ⟨e2, Int.emod_nonneg _ (by omega), fun e he => (e4 e he).1⟩

theorem sat_parseCt {pk : CsPublic} {p : CsCtProto} :
    (Cs.parseCiphertextProto pk p).Sat (fun ct => ct.es.length = p.es.length ∧ 0 ≤ ct.u ∧
      ∀ e ∈ ct.es, 0 ≤ e) := by
  unfold Cs.parseCiphertextProto
  dsimp only
  split
  · exact sat_err
  split
  · exact sat_err
  split
  · exact sat_err
  rename_i h1 h2 h3
  refine sat_ok ⟨by simp [parseBigNumVectorProto], ?_, ?_⟩
  · show 0 ≤ BN.ofBytes p.u
    exact BN.ofBytes_nonneg _
  · intro e he
    simp only [parseBigNumVectorProto, List.mem_map] at he
    obtain ⟨x, _, rfl⟩ := he
    exact BN.ofBytes_nonneg _

theorem parse_nonneg (l : List Bytes) : ∀ e ∈ parseBigNumVectorProto l, 0 ≤ e := by
  intro e he
  simp only [parseBigNumVectorProto, List.mem_map] at he
  obtain ⟨x, _, rfl⟩ := he
  exact BN.ofBytes_nonneg _

theorem parse_length (l : List Bytes) : (parseBigNumVectorProto l).length = l.length := by
  simp [parseBigNumVectorProto]

/-! ### The ciphertexts -/

theorem sat_homStep {pk : CsPublic} {L : Nat} (hL : pk.len = L) (hm : 0 < pk.modulus)
    {as gammas : List Int} {ks yks : List CsCt} {start j : Nat} {ct : CsCt}
    (hk : ∀ c ∈ ks, c.es.length = L) (hy : ∀ c ∈ yks, c.es.length = L) (hjk : j < ks.length)
    (hjy : j < yks.length) (ha : ∀ a ∈ as, 0 ≤ a) (hg : ∀ a ∈ gammas, 0 ≤ a)
    (hja : start + j < as.length) (hjg : start + j < gammas.length) (hc : Full L ct) :
    (homStep pk as gammas ks yks start ct j).Sat (Full L) := by
  unfold homStep
  refine (sat_idx hjk hk).bind fun kj hkj => ?_
  refine (sat_idx hja ha).bind fun a ha' => ?_
  refine (sat_csMultiply hL hm hkj ha').bind fun ka hka => ?_
  refine (sat_csAdd hL hm hc.1 hka.1).bind fun ct' hct' => ?_
  refine (sat_idx hjy hy).bind fun yj hyj => ?_
  refine (sat_idx hjg hg).bind fun b hb => ?_
  refine (sat_csMultiply hL hm hyj hb).bind fun yg hyg => ?_
  exact sat_csAdd hL hm hct'.1 hyg.1

theorem sat_homCts {cfg : ExpCfg} {pk : CsPublic} (hP : Cs.PubGood cfg pk N s g ys)
    (hys : 0 < ys.length) {ms as gammas rands : List Int} {ks yks : List CsCt}
    (hk : ∀ c ∈ ks, c.es.length = ys.length) (hy : ∀ c ∈ yks, c.es.length = ys.length)
    (hlk : ys.length ≤ ks.length) (hly : ys.length ≤ yks.length) (ha : ∀ a ∈ as, 0 ≤ a)
    (hg : ∀ a ∈ gammas, 0 ≤ a) (hla : as.length = ms.length) (hlg : gammas.length = ms.length)
    (hlr : rands.length = numCts ms.length ys.length) :
    (homCts pk ms as gammas rands ks yks).Sat
      (fun l => l.length = numCts ms.length ys.length ∧ ∀ c ∈ l, Full ys.length c) := by
  have hpos : (0 : Int) < N := by have := hP.npos; omega
  have hm : 0 < pk.modulus := by rw [hP.hmod]; exact pow_pos hpos _
  have hL := hP.hlen
  unfold homCts
  rw [if_neg (by omega), hL]
  refine (sat_mapM (P := Full ys.length) ?_).mono fun l hl => ⟨by simpa using hl.1, hl.2⟩
  intro i hi
  have hi' : i < rands.length := by rw [hlr]; simpa using hi
  unfold homCt
  dsimp only
  refine (sat_idx (P := fun _ => True) hi' (fun _ _ => trivial)).bind fun r _ => ?_
  refine (sat_csEncrypt hP _ r).bind fun ct hct => ?_
  refine sat_foldlM hct fun ct hct j hj => ?_
  have hj' := List.mem_range.1 hj
  rw [hL] at hj' ⊢
  exact sat_homStep hL hm hk hy (by omega) (by omega) ha hg (by omega) (by omega) hct

/-! ### The commitments -/

theorem sat_accumulate {p : Pedersen} (hn : 0 < p.n) {acc : Int} (hacc : 0 ≤ acc) {cs es : List Int}
    (he : ∀ e ∈ es, 0 ≤ e) : (accumulate p acc cs es).Sat (fun x => 0 ≤ x) := by
  unfold accumulate
  refine sat_foldlM hacc fun b hb x hx => ?_
  have : x.2 ∈ es := (List.of_mem_zip hx).2
  exact (sat_modExp (he _ this) hn).bind fun y _ => sat_modMul hn

/-- Everything nonnegative in the tuple of commitments. -/
def ComOk (k : Nat) (x : Int × Int × List Int × Int × Int × Int × Int × Int) : Prop :=
  x.2.2.1.length = k

theorem sat_commitments {p : Pedersen} (hG : Ped.Good p gs h n) (hn : 0 < n) {cas : List Int}
    {w : Witness} (ha : cas.length ≤ w.as.length) (hao : cas.length ≤ w.asOpen.length)
    (hm : ∀ e ∈ w.messages, 0 ≤ e) (hr : ∀ e ∈ w.rs, 0 ≤ e) :
    (commitments p cas w).Sat (ComOk cas.length) := by
  have hn' : 0 < p.n := by rw [hG.n_eq]; exact hn
  unfold commitments
  dsimp only
  refine (sat_commit hG hn _ _).bind fun x1 h1 => ?_
  refine (sat_commit hG hn _ _).bind fun x2 h2 => ?_
  refine (sat_mapM (P := fun x => 0 ≤ x) ?_).bind fun x3 h3 => ?_
  · intro i hi
    have hi' := List.mem_range.1 hi
    unfold commitAt
    refine (sat_idx (P := fun _ => True) (show i < w.as.length by omega)
      (fun _ _ => trivial)).bind fun a _ => ?_
    refine (sat_idx (P := fun _ => True) (show i < w.asOpen.length by omega)
      (fun _ _ => trivial)).bind fun o _ => ?_
    exact sat_commit hG hn _ _
  refine (sat_commit hG hn _ _).bind fun x4 h4 => ?_
  refine (sat_commit hG hn _ _).bind fun x5 h5 => ?_
  refine (sat_commit hG hn _ _).bind fun x6 h6 => ?_
  refine (sat_commit hG hn _ _).bind fun x7 h7 => ?_
  refine (sat_commit hG hn _ _).bind fun x8 h8 => ?_
  refine (sat_accumulate hn' h7 hm).bind fun x9 h9 => ?_
  refine (sat_accumulate hn' h8 hr).bind fun x10 h10 => ?_
  exact sat_pure (by simpa [ComOk] using h3.1)

/-! ### Recomputation -/

theorem sat_unmask {p : Pedersen} (hn : 0 < p.n) {c m x : Int} (hc : 0 ≤ c) :
    (unmask p c m x).Sat (fun x => 0 ≤ x) := by
  unfold unmask
  refine (sat_modExp hc hn).bind fun _ _ => ?_
  exact (sat_modInverse _ _).bind fun _ _ => sat_modMul hn

theorem sat_unmaskCt {pk : CsPublic} {L : Nat} (hL : pk.len = L) (hm : 0 < pk.modulus) {c : Int}
    (hc : 0 ≤ c) {a b : CsCt} (ha : Full L a) (hb : b.es.length = L) :
    (unmaskCt pk c a b).Sat (Full L) := by
  unfold unmaskCt
  refine (sat_csMultiply hL hm hb hc).bind fun p hp => ?_
  refine (sat_modInverse _ _).bind fun u hu => ?_
  refine (sat_mapM (P := fun x => 0 ≤ x) (fun e _ => sat_modInverse _ _)).bind fun es hes => ?_
  exact sat_csAdd hL hm ha.1 (by show es.length = L; rw [hes.1, hp.1])

/-- Nothing in the first message is negative. -/
structure CompOk (c : Composites) : Prop where
  messages : 0 ≤ c.messages
  rs : 0 ≤ c.rs
  as : ∀ a ∈ c.as, 0 ≤ a
  bs : 0 ≤ c.bs
  alphas1 : 0 ≤ c.alphas1
  alphas2 : 0 ≤ c.alphas2
  gammas1 : 0 ≤ c.gammas1
  gammas2 : 0 ≤ c.gammas2
  cts : ∀ x ∈ c.cts, 0 ≤ x.u ∧ ∀ e ∈ x.es, 0 ≤ e

theorem Made.sat_recompute (M : Made gs h n N s g ys v) {p : BbReqProof} {cm cr : Int}
    {cts mcts : List CsCt} {m : Int × Int × List Int × Int × Int × Int × Int × Int}
    (hc : ∀ c ∈ cts, c.es.length = ys.length) (hmc : ∀ c ∈ mcts, Full ys.length c) :
    (recompute v p cm cr cts m mcts).Sat CompOk := by
  obtain ⟨cfg, hP⟩ := M.pub
  have hn : 0 < v.ped.n := by rw [M.good.n_eq]; exact M.n0
  have hpos : (0 : Int) < N := by have := hP.npos; omega
  have hm : 0 < v.cs.modulus := by rw [hP.hmod]; exact pow_pos hpos _
  have h0 := BN.ofBytes_nonneg p.challenge
  unfold recompute
  dsimp only
  refine (sat_unmask hn h0).bind fun x1 h1 => ?_
  refine (sat_unmask hn h0).bind fun x2 h2 => ?_
  refine (sat_mapM (fun x _ => sat_unmask hn h0)).bind fun x3 h3 => ?_
  refine (sat_unmask hn h0).bind fun x4 h4 => ?_
  refine (sat_unmask hn h0).bind fun x5 h5 => ?_
  refine (sat_unmask hn h0).bind fun x6 h6 => ?_
  refine (sat_unmask hn h0).bind fun x7 h7 => ?_
  refine (sat_unmask hn h0).bind fun x8 h8 => ?_
  refine (sat_mapM (P := Full ys.length) ?_).bind fun x9 h9 => ?_
  · intro x hx
    have := List.of_mem_zip hx
    exact sat_unmaskCt hP.hlen hm h0 (hmc _ this.1) (hc _ this.2)
  exact sat_pure ⟨h1, h2, h3.2, h4, h5, h6, h7, h8, fun x hx => (h9.2 x hx).2⟩

theorem sat_toProto {c : Composites} (hc : CompOk c) : c.toProto.Sat (fun _ => True) := by
  unfold Composites.toProto
  refine (sat_toBytes hc.messages).bind fun _ _ => ?_
  refine (sat_toBytes hc.rs).bind fun _ _ => ?_
  refine (sat_bigNumVectorToProto hc.as).bind fun _ _ => ?_
  refine (sat_toBytes hc.bs).bind fun _ _ => ?_
  refine (sat_toBytes hc.alphas1).bind fun _ _ => ?_
  refine (sat_toBytes hc.alphas2).bind fun _ _ => ?_
  refine (sat_toBytes hc.gammas1).bind fun _ _ => ?_
  refine (sat_toBytes hc.gammas2).bind fun _ _ => ?_
  refine (sat_mapM (P := fun _ => True) ?_).bind fun _ _ => sat_pure trivial
  intro x hx
  obtain ⟨h1, h2⟩ := hc.cts x hx
  unfold Cs.ciphertextToProto
  refine (sat_toBytes h1).bind fun _ _ => ?_
  exact (sat_bigNumVectorToProto h2).bind fun _ _ => sat_pure trivial

theorem Made.sat_requestBounds (M : Made gs h n N s g ys v) (w : Witness) :
    (requestBounds v w).Sat (fun _ => True) := by
  unfold requestBounds
  dsimp only
  rw [M.shift_t1, Res.ok_bind, M.shift_2t1, Res.ok_bind]
  split
  · exact sat_err
  · exact sat_ok trivial

/-- The sizes that the verifier does check. -/
structure SizesOk (v : BbSig G) (req : BbRequest) (p : BbReqProof) : Prop where
  num : req.num ≤ v.ped.gs.length
  commitAs : p.commitAs.length = req.num
  messages : p.message2.messages.length = req.num
  rs : p.message2.rs.length = req.num
  as : p.message2.as.length = req.num
  bs : p.message2.bs.length = req.num
  alphas : p.message2.alphas.length = req.num
  gammas : p.message2.gammas.length = req.num
  cts : req.cts.length = numCts req.num v.cs.len
  enc : p.message2.enc.length = numCts req.num v.cs.len

theorem sat_requestSizes {req : BbRequest} {p : BbReqProof} (hl : v.cs.len ≠ 0) :
    (requestSizes v req p).Sat (fun _ => SizesOk v req p) := by
  unfold requestSizes
  split; · exact sat_err
  split; · exact sat_err
  split; · exact sat_err
  split; · exact sat_err
  split; · exact sat_err
  split; · exact sat_err
  split; · exact sat_err
  split; · exact sat_err
  split; · exact sat_err
  split; · exact sat_err
  refine sat_ok ?_
  constructor <;> omega

theorem Made.sat_parseKeys (M : Made gs h n N s g ys v) {pk : BbPublicKey}
    (hk : ys.length ≤ pk.encK.length) (hy : ys.length ≤ pk.encY.length)
    (hkf : ∀ p ∈ pk.encK, p.es.length = ys.length) (hyf : ∀ p ∈ pk.encY, p.es.length = ys.length) :
    (parseKeys v.cs pk).Sat (fun x => x.1.length = ys.length ∧ x.2.length = ys.length ∧
      (∀ c ∈ x.1, c.es.length = ys.length) ∧ ∀ c ∈ x.2, c.es.length = ys.length) := by
  obtain ⟨cfg, hP⟩ := M.pub
  unfold parseKeys
  refine (sat_mapM (P := fun x => x.1.es.length = ys.length ∧ x.2.es.length = ys.length)
    ?_).bind fun l hl => ?_
  · intro i hi
    have hi' := List.mem_range.1 hi
    rw [hP.hlen] at hi'
    unfold parseKeyAt
    refine (sat_idx (by omega) hkf).bind fun a ha => ?_
    refine sat_parseCt.bind fun b hb => ?_
    refine (sat_idx (by omega) hyf).bind fun c hc => ?_
    refine sat_parseCt.bind fun d hd => ?_
    exact sat_pure ⟨hb.1.trans ha, hd.1.trans hc⟩
  · refine sat_pure ⟨?_, ?_, ?_, ?_⟩
    · simpa [hP.hlen] using hl.1
    · simpa [hP.hlen] using hl.1
    · intro c hc
      obtain ⟨x, hx, rfl⟩ := List.mem_map.1 hc
      exact (hl.2 x hx).1
    · intro c hc
      obtain ⟨x, hx, rfl⟩ := List.mem_map.1 hc
      exact (hl.2 x hx).2

theorem Made.sat_verifyRequest (M : Made gs h n N s g ys v) (H : Hashes) {pk : BbPublicKey}
    {req : BbRequest} {p : BbReqProof} {cm cr : Int} (hk : ys.length ≤ pk.encK.length)
    (hy : ys.length ≤ pk.encY.length) (hkf : ∀ p ∈ pk.encK, p.es.length = ys.length)
    (hyf : ∀ p ∈ pk.encY, p.es.length = ys.length) (hcm : 0 ≤ cm) (hcr : 0 ≤ cr)
    (ho : p.message2.asOpen.length = req.num) (hct : ∀ c ∈ req.cts, c.es.length = ys.length) :
    (verifyRequest H v pk req p cm cr).Sat (fun _ => SizesOk v req p) := by
  obtain ⟨cfg, hP⟩ := M.pub
  have hl0 := M.len0
  unfold verifyRequest
  dsimp only
  refine (sat_requestSizes (by rw [hP.hlen]; omega)).bind fun _ S => ?_
  refine (sat_toBytes hcm).bind fun _ _ => ?_
  refine (sat_toBytes hcr).bind fun _ _ => ?_
  refine (sat_mapM (P := fun ct => ct.es.length = ys.length) ?_).bind fun cts hcts => ?_
  · intro c hc
    exact sat_parseCt.mono fun ct h => h.1.trans (hct c hc)
  refine (M.sat_requestBounds _).bind fun _ _ => ?_
  refine (sat_commitments M.good M.n0 ?_ ?_ ?_ ?_).bind fun m hm => ?_
  · simp only [BbReqMessage2.parse, parse_length]
    rw [S.commitAs, S.as]
  · simp only [BbReqMessage2.parse, parse_length]
    rw [S.commitAs, ho]
  · exact parse_nonneg _
  · exact parse_nonneg _
  refine (M.sat_parseKeys hk hy hkf hyf).bind fun keys hkeys => ?_
  have hml : (maskedMessages v.group.order p.message2.parse).length = req.num := by
    simp only [maskedMessages, List.length_zipWith, BbReqMessage2.parse, parse_length]
    rw [S.alphas, S.bs, min_self]
  refine Sat.bind (P := fun l => ∀ c ∈ l, Full ys.length c) ?_ fun mcts hmcts => ?_
  · unfold ciphertexts
    refine (sat_homCts hP hl0 hkeys.2.2.1 hkeys.2.2.2 (by omega) (by omega) (parse_nonneg _)
      (parse_nonneg _) ?_ ?_ ?_).mono fun l hl => hl.2
    · rw [hml]
      simp only [BbReqMessage2.parse, parse_length]
      exact S.as
    · rw [hml]
      simp only [BbReqMessage2.parse, parse_length]
      exact S.gammas
    · rw [hml]
      simp only [BbReqMessage2.parse, parse_length]
      rw [S.enc, hP.hlen]
  refine (M.sat_recompute hcts.2 hmcts).bind fun c hc => ?_
  refine (sat_toProto hc).bind fun m1 _ => ?_
  obtain ⟨x, hx, -, -⟩ := M.requestChallenge_ok H
    ⟨v.params, pk, _, _, p.commitAs, p.commitBs, p.commitAlphas, p.commitGammas, req⟩ m1
  rw [hx, Res.ok_bind]
  split
  · exact sat_err
  · exact sat_ok S

/-! ### Responses -/

theorem numCts_bounds {k L i : Nat} (hL : 0 < L) (hi : i < numCts k L) : i * L < k := by
  unfold numCts at hi
  have h1 := Nat.div_mul_le_self (k + L - 1) L
  have h2 : (i + 1) * L ≤ (k + L - 1) / L * L := Nat.mul_le_mul_right L hi
  rw [Nat.succ_mul] at h2
  omega

theorem le_numCts_mul {k L : Nat} (hL : 0 < L) : k ≤ numCts k L * L := by
  unfold numCts
  have h1 := Nat.div_add_mod (k + L - 1) L
  have h2 := Nat.mod_lt (k + L - 1) hL
  rw [Nat.mul_comm] at h1
  omega

theorem sat_ecPoints {E : EcGroup G} (Ps : List G) :
    (ecPointVectorToProto E Ps).Sat (fun _ => True) := by
  unfold ecPointVectorToProto
  refine (sat_mapM (P := fun _ => True) ?_).mono fun _ _ => trivial
  intro P _
  unfold EcGroup.toBytesCompressed
  split
  · exact sat_ok trivial
  · exact sat_err

theorem sat_parseEc {E : EcGroup G} (bs : List Bytes) :
    (parseECPointVectorProto E bs).Sat (fun Ps => Ps.length = bs.length) := by
  unfold parseECPointVectorProto
  refine (sat_mapM (P := fun _ => True) ?_).mono fun _ h => h.1
  intro b _
  unfold EcGroup.createECPoint
  split
  · exact sat_err
  split
  · exact sat_err
  · exact sat_ok trivial

theorem sat_batch {L num i : Nat} {l : List Int} (h : i * L ≤ num) (hl : l.length = num) :
    (batch L num l i).Sat (fun b => b.length ≤ L) := by
  unfold batch
  rw [if_neg (by omega)]
  exact sat_ok (by simp)

theorem Made.sat_recomputeEs (M : Made gs h n N s g ys v) {c : Int} (hc : 0 ≤ c) {num i : Nat}
    {cts : List CsCt} {betas xs : List Int} (hi : i < cts.length) (hin : i * ys.length ≤ num)
    (hb : betas.length = num) (hct : ∀ c ∈ cts, c.es.length = ys.length)
    (hx : xs.length = ys.length) (hx0 : ∀ x ∈ xs, 0 ≤ x) :
    (recomputeEs v c num cts betas xs i).Sat (fun _ => True) := by
  obtain ⟨cfg, hP⟩ := M.pub
  have hpos : (0 : Int) < N := by have := hP.npos; omega
  have hm : 0 < v.cs.modulus := by rw [hP.hmod]; exact pow_pos hpos _
  unfold recomputeEs
  rw [hP.hlen]
  refine (sat_batch hin hb).bind fun bs hbs => ?_
  refine (sat_csEncrypt hP _ _).bind fun inter hinter => ?_
  refine (sat_idx hi hct).bind fun ct hct' => ?_
  refine (sat_mapM (P := fun x => 0 ≤ x) ?_).bind fun es hes => ?_
  · intro j hj
    have hj' := List.mem_range.1 hj
    unfold recomputeE
    refine (sat_idx (P := fun _ => True) (by rw [hinter.1]; omega) fun _ _ => trivial).bind
      fun e _ => ?_
    refine (sat_idx (by omega) hx0).bind fun x hx' => ?_
    refine (sat_modExp hx' hm).bind fun ux _ => ?_
    refine (sat_modMul hm).bind fun m _ => ?_
    refine (sat_idx (P := fun _ => True) (by omega) fun _ _ => trivial).bind fun e _ => ?_
    refine (sat_modExp hc hm).bind fun p _ => ?_
    exact (sat_modInverse _ _).bind fun _ _ => sat_modMul hm
  · exact sat_bigNumVectorToProto hes.2

theorem Made.sat_recomputeY (M : Made gs h n N s g ys v) {c : Int} (hc : 0 ≤ c) {i : Nat}
    {xs : List Int} (hi : i < ys.length) (hx : xs.length = ys.length) (hx0 : ∀ x ∈ xs, 0 ≤ x) :
    (recomputeY v c xs i).Sat (fun x => 0 ≤ x) := by
  obtain ⟨cfg, hP⟩ := M.pub
  have hpos : (0 : Int) < N := by have := hP.npos; omega
  have hm : 0 < v.cs.modulus := by rw [hP.hmod]; exact pow_pos hpos _
  unfold recomputeY
  refine (sat_idx (by omega) hx0).bind fun x hx' => ?_
  refine (sat_modExp hx' hm).bind fun ux _ => ?_
  refine (sat_idx (P := fun _ => True) (by rw [hP.hys]; omega) fun _ _ => trivial).bind fun y _ => ?_
  refine (sat_modExp hc hm).bind fun p _ => ?_
  exact (sat_modInverse _ _).bind fun _ _ => sat_modMul hm

theorem Made.sat_responseChallenge (M : Made gs h n N s g ys v) (H : Hashes) {pk : BbPublicKey}
    {cm cr : Int} (hcm : 0 ≤ cm) (hcr : 0 ≤ cr) {req : BbRequest} {resp : List Bytes} {cb : Int}
    (hcb : 0 ≤ cb) (m : BbRespMessage1) :
    (responseChallenge H v pk cm cr req resp cb m).Sat (fun c => 0 ≤ c) := by
  have := M.chal
  unfold responseChallenge
  rw [M.chalBound, Res.ok_bind]
  refine (sat_toBytes hcm).bind fun a _ => ?_
  refine (sat_toBytes hcr).bind fun b _ => ?_
  refine (sat_toBytes hcb).bind fun d _ => ?_
  obtain ⟨c, h1, h2, -⟩ := Ped.oracle_ok H
    (responseTranscript ⟨v.params, pk, a, b, req, resp, d⟩ m) (len := v.params.chal.toNat) (by omega)
  exact sat_eq h1 h2

theorem Made.sat_verifyResponse (M : Made gs h n N s g ys v) (H : Hashes) {pk : BbPublicKey}
    {resp : List Bytes} {p : BbRespProof} {req : BbRequest} {cm cr : Int} (hcm : 0 ≤ cm)
    (hcr : 0 ≤ cr) (hnum : req.cts.length = numCts req.num ys.length)
    (hct : ∀ c ∈ req.cts, c.es.length = ys.length) :
    (verifyResponse H v pk resp p req cm cr).Sat (fun _ => True) := by
  obtain ⟨cfg, hP⟩ := M.pub
  have hn : 0 < v.ped.n := by rw [M.good.n_eq]; exact M.n0
  have h0 := BN.ofBytes_nonneg p.challenge
  unfold verifyResponse
  split; · exact sat_err
  split; · exact sat_err
  split; · exact sat_err
  rename_i h1 h2 h3
  have hx : (parseBigNumVectorProto p.xs).length = ys.length := by
    rw [parse_length]
    have := hP.hlen
    omega
  have hb : (parseBigNumVectorProto p.betas).length = req.num := by
    rw [parse_length]
    omega
  refine (sat_mapM (P := fun ct => ct.es.length = ys.length) ?_).bind fun cts hcts => ?_
  · intro c hc
    exact sat_parseCt.mono fun ct h => h.1.trans (hct c hc)
  refine (sat_parseEc _).bind fun sigs _ => ?_
  dsimp only
  rw [M.betasBound_ok.2, Res.ok_bind]
  split
  · exact sat_err
  refine (sat_ecPoints _).bind fun _ _ => ?_
  refine (sat_mapM (P := fun _ => True) ?_).bind fun _ _ => ?_
  · intro i hi
    have hi' := List.mem_range.1 hi
    have := numCts_bounds M.len0 (hnum ▸ hi')
    exact M.sat_recomputeEs h0 (by omega) (by omega) hb hcts.2 hx (parse_nonneg _)
  refine (sat_commit M.good M.n0 _ _).bind fun _ _ => ?_
  refine (sat_unmask hn h0).bind fun _ hd => ?_
  refine (sat_toBytes hd).bind fun _ _ => ?_
  refine (sat_mapM (P := fun x => 0 ≤ x) ?_).bind fun _ hys => ?_
  · intro i hi
    have hi' := List.mem_range.1 hi
    rw [hP.hlen] at hi'
    exact M.sat_recomputeY h0 hi' hx (parse_nonneg _)
  refine (sat_bigNumVectorToProto hys.2).bind fun _ _ => ?_
  refine (M.sat_responseChallenge H hcm hcr (BN.ofBytes_nonneg _) _).bind fun _ _ => ?_
  split
  · exact sat_err
  · exact sat_ok trivial

theorem decLoop_facts {cfg : ExpCfg} {sk : CsPrivate} {xs : List Int}
    (P : Cs.PrivGood cfg sk N s g ys xs) (u : Int) : ∀ (es xs r : List Int),
    Cs.decLoop sk u es xs = .ok r → r.length = min es.length xs.length ∧ ∀ m ∈ r, 0 ≤ m
  | [], _, r, h => by
    simp only [Cs.decLoop, Res.ok.injEq] at h
    subst h
    simp
  | _ :: _, [], r, h => by
    simp only [Cs.decLoop, Res.ok.injEq] at h
    subst h
    simp
  | e :: es, x :: xs, r, h => by
    have hpos : (0 : Int) < N := by have := P.pub.npos; omega
    unfold Cs.decLoop at h
    simp only [Res.bind_eq_ok, Res.pure_eq, Res.ok.injEq] at h
    obtain ⟨_, _, _, _, _, _, m, _, rest, hr, rfl⟩ := h
    obtain ⟨h1, h2⟩ := decLoop_facts P u es xs rest hr
    refine ⟨by simp [h1], ?_⟩
    intro y hy
    rcases List.mem_cons.1 hy with rfl | hy
    · apply Int.emod_nonneg
      rw [P.pub.hs, P.pub.powers s (by omega)]
      exact (pow_pos hpos _).ne'
    · exact h2 y hy

theorem sat_decrypt {xs : List Int} {sk : CsPrivate} (S : Priv N s g ys xs sk) (ct : CsCt) :
    (Cs.decrypt sk ct).Sat
      (fun ms => ct.es.length = ys.length ∧ ms.length = ys.length ∧ ∀ m ∈ ms, 0 ≤ m) := by
  obtain ⟨cfg, P⟩ := S.sk
  unfold Cs.decrypt
  split
  · exact sat_err
  rename_i hl
  have hl' : ct.es.length = ys.length := by have := P.pub.hlen; omega
  have hx : ∀ x ∈ sk.xs, 0 ≤ x := by rw [P.hxs]; exact S.rel.nonneg
  rcases Cs.decLoop_safe P ct.u ct.es sk.xs hx with ⟨r, hr⟩ | hr
  · obtain ⟨h1, h2⟩ := decLoop_facts P _ _ _ _ hr
    refine sat_eq hr ⟨hl', ?_, h2⟩
    rw [h1, P.hxs, ← P.hlen, hl', min_self]
  · rw [hr]
    exact sat_err

theorem sat_randLessThan (w : Nat) {b : Int} (hb : 0 < b) :
    (Ctx.randLessThan w b).Sat (fun x => 0 ≤ x) := by
  obtain ⟨r, h1, h2, -⟩ := randLessThan_ok w hb
  exact sat_eq h1 h2

theorem sat_drawList {k : Nat} {b : Int} (hb : 0 < b) (d : Nat → Nat) :
    (drawList k b d).Sat (fun l => l.length = k ∧ ∀ x ∈ l, 0 ≤ x) := by
  unfold drawList
  exact (sat_mapM (fun i _ => sat_randLessThan _ hb)).mono fun l h => ⟨by simpa using h.1, h.2⟩

theorem length_flatten_of {α : Type} {L : Nat} : ∀ {l : List (List α)}, (∀ x ∈ l, x.length = L) →
    l.flatten.length = l.length * L
  | [], _ => by simp
  | a :: l, h => by
    rw [List.flatten_cons, List.length_append, h a (by simp),
      length_flatten_of (fun x hx => h x (by simp [hx])), List.length_cons, Nat.succ_mul, Nat.add_comm]

theorem zipWith_nonneg {f : Int → Int → Int} (hf : ∀ a b, 0 ≤ a → 0 ≤ b → 0 ≤ f a b) :
    ∀ {l m : List Int}, (∀ a ∈ l, 0 ≤ a) → (∀ a ∈ m, 0 ≤ a) → ∀ x ∈ List.zipWith f l m, 0 ≤ x
  | [], _, _, _, x, hx => by simp at hx
  | _ :: _, [], _, _, x, hx => by simp at hx
  | a :: l, b :: m, hl, hm, x, hx => by
    rw [List.zipWith_cons_cons] at hx
    rcases List.mem_cons.1 hx with rfl | hx
    · exact hf _ _ (hl a (by simp)) (hm b (by simp))
    · exact zipWith_nonneg hf (fun y hy => hl y (by simp [hy])) (fun y hy => hm y (by simp [hy])) x hx

theorem sat_signOne (b : Int) : (signOne v b).Sat (fun _ => True) := by
  unfold signOne
  exact (sat_modInverse _ _).bind fun _ _ => sat_pure trivial

theorem Made.sat_dummyEs (M : Made gs h n N s g ys v) {xs0 : List Int} {sk : CsPrivate}
    (S : Priv N s g ys xs0 sk) {num i : Nat} {cts : List CsCt} {betas xs : List Int}
    (hi : i < cts.length) (hin : i * ys.length ≤ num) (hb : betas.length = num)
    (hx : xs.length = ys.length) (hx0 : ∀ x ∈ xs, 0 ≤ x) :
    (dummyEs v sk num cts betas xs i).Sat (fun _ => True) := by
  obtain ⟨cfg, hP⟩ := M.pub
  obtain ⟨cfg', hP'⟩ := S.sk
  have hpos : (0 : Int) < N := by have := hP.npos; omega
  have hm : 0 < sk.pub.modulus := by rw [hP'.pub.hmod]; exact pow_pos hpos _
  unfold dummyEs
  rw [hP.hlen]
  refine (sat_batch hin hb).bind fun bs hbs => ?_
  refine (sat_csEncrypt hP'.pub _ _).bind fun inter hinter => ?_
  refine (sat_idx (P := fun _ => True) hi fun _ _ => trivial).bind fun ct _ => ?_
  refine (sat_mapM (P := fun x => 0 ≤ x) ?_).bind fun es hes => sat_bigNumVectorToProto hes.2
  intro j hj
  have hj' := List.mem_range.1 hj
  unfold dummyE
  refine (sat_idx (by omega) hx0).bind fun x hx' => ?_
  refine (sat_modExp hx' hm).bind fun ux _ => ?_
  refine (sat_idx (P := fun _ => True) (by rw [hinter.1]; omega) fun _ _ => trivial).bind
    fun e _ => ?_
  exact sat_modMul hm

theorem Made.sat_generateResponse (M : Made gs h n N s g ys v) {xs : List Int} {sk : CsPrivate}
    (S : Priv N s g ys xs sk) (H : Hashes) {pk : BbPublicKey} {req : BbRequest} {cm cr : Int}
    (hcm : 0 ≤ cm) (hcr : 0 ≤ cr) (hnum : req.cts.length = numCts req.num ys.length)
    (d : RespDraws) : (generateResponse H v sk req pk cm cr d).Sat (fun _ => True) := by
  obtain ⟨cfg, hP⟩ := M.pub
  obtain ⟨cfg', hP'⟩ := S.sk
  have hq := M.order
  have hpos : (0 : Int) < N := by have := hP.npos; omega
  have hm : 0 < sk.pub.modulus := by rw [hP'.pub.hmod]; exact pow_pos hpos _
  have hpn : 0 < v.ped.n := by rw [M.good.n_eq]; exact M.n0
  unfold generateResponse
  split
  · exact sat_err
  refine (sat_mapM (P := fun x : CsCt × List Int => x.2.length = ys.length ∧ ∀ m ∈ x.2, 0 ≤ m)
    ?_).bind fun dec hdec => ?_
  · intro c _
    unfold decryptOne
    refine sat_parseCt.bind fun ct _ => ?_
    exact (sat_decrypt S ct).bind fun ms hms => sat_pure hms.2
  have hall : ((dec.map Prod.snd).flatten).length = req.cts.length * ys.length := by
    rw [length_flatten_of (L := ys.length)]
    · simp [hdec.1]
    · intro x hx
      obtain ⟨y, hy, rfl⟩ := List.mem_map.1 hx
      exact (hdec.2 y hy).1
  have hge := le_numCts_mul (k := req.num) M.len0
  have hbl : ((dec.map Prod.snd).flatten.take req.num).length = req.num := by
    rw [List.length_take, hall, hnum]
    omega
  have hb0 : ∀ m ∈ (dec.map Prod.snd).flatten.take req.num, 0 ≤ m := by
    intro m hm'
    obtain ⟨l, hl, hml⟩ := List.mem_flatten.1 (List.mem_of_mem_take hm')
    obtain ⟨y, hy, rfl⟩ := List.mem_map.1 hl
    exact (hdec.2 y hy).2 m hml
  dsimp only
  rw [if_neg (by rw [hall, hnum]; omega)]
  refine (sat_mapM (fun b _ => sat_signOne b)).bind fun sigs _ => ?_
  refine (sat_ecPoints _).bind fun _ _ => ?_
  refine Sat.bind (P := fun x : Int × Int => 0 ≤ x.1 ∧ 0 ≤ x.2) ?_ fun cb hcb => ?_
  · unfold Ped.commit
    refine (sat_randLessThan _ hpn).bind fun r hr => ?_
    exact (sat_commit M.good M.n0 _ _).bind fun c hc => sat_pure ⟨hc, hr⟩
  refine (sat_toBytes hcb.1).bind fun _ _ => ?_
  rw [M.betasBound_ok.1, Res.ok_bind]
  have hB : 0 < dBetaB v := by
    unfold dBetaB
    positivity
  refine (sat_drawList hB _).bind fun dB hdB => ?_
  rw [M.shift_t, Res.ok_bind, hP.hn, hP.hlen]
  have hX : (0 : Int) < N * 2 ^ tBits v := by positivity
  refine (sat_drawList hX _).bind fun dX hdX => ?_
  refine (sat_randLessThan _ hX).bind fun dO hdO => ?_
  refine (sat_commit M.good M.n0 _ _).bind fun dC hdC => ?_
  refine (sat_mapM (P := fun x => 0 ≤ x) fun x hx => sat_modExp (hdX.2 x hx) hm).bind
    fun dY hdY => ?_
  refine (sat_bigNumVectorToProto hdY.2).bind fun _ _ => ?_
  refine (sat_toBytes hdC).bind fun _ _ => ?_
  refine (sat_ecPoints _).bind fun _ _ => ?_
  refine (sat_mapM (P := fun _ => True) ?_).bind fun _ _ => ?_
  · intro i hi
    have hi' := List.mem_range.1 hi
    have := numCts_bounds M.len0 (hnum ▸ hi')
    exact M.sat_dummyEs S (by rw [List.length_map, hdec.1]; exact hi') (by omega) hdB.1 hdX.1 hdX.2
  refine (M.sat_responseChallenge H hcm hcr hcb.1 _).bind fun c hc => ?_
  refine (sat_toBytes hc).bind fun _ _ => ?_
  refine (sat_bigNumVectorToProto (zipWith_nonneg ?_ hdB.2 hb0)).bind fun _ _ => ?_
  · intro a b ha hb
    positivity
  refine (sat_mapM (P := fun x => 0 ≤ x) ?_).bind fun mX hmX => ?_
  · intro i hi
    have hi' := List.mem_range.1 hi
    unfold maskX
    refine (sat_idx (by omega) hdX.2).bind fun a ha => ?_
    refine (sat_idx (by rw [hP'.hxs, ← hP'.hlen]; omega)
      (by rw [hP'.hxs]; exact S.rel.nonneg)).bind fun b hb => ?_
    exact sat_pure (by positivity)
  refine (sat_bigNumVectorToProto hmX.2).bind fun _ _ => ?_
  refine (sat_toBytes (by have := hcb.2; positivity)).bind fun _ _ => ?_
  exact sat_pure trivial

end PJC.Bb
