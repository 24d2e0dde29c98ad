import Verif.Lemmas.BbZk
set_option linter.unusedSectionVars false
/-
C100: the proofs of the oblivious signature are honest-verifier statistical zero-knowledge.

As in C90 and C91, the challenge is fixed, the hash function is any that leads to it, the draws of
the masks range over all their values, and the proofs are compared with those of a simulator that
knows none of the secrets.
-/
namespace PJC.Props
open PJC.Bb PJC.DJ PJC.Stat

variable {G : Type} [AddCommGroup G] [DecidableEq G]
variable {gs : List Int} {h n : Int} {N s : Nat} {g : Int} {ys xs : List Int} {v : BbSig G}
  {sk : CsPrivate}

/-- An honest request in closed form. -/
theorem request_form (S : BbSetup gs h n N s g ys xs v sk) {pk : BbPublicKey} {bsk : BbPrivateKey}
    {ms rs : List Int} {cm om cr orr : Int} (R : BbRun gs N ys v pk bsk ms rs cm om cr orr) :
    ∃ ks yks, KeyOk v N s ys pk ks yks ∧ ∀ d : ReqDraws, ∀ w, w = secretP v n N ys.length ms rs om orr d →
      ∀ dw, dw = dummyP v n N ys.length ms.length d →
      ∀ p, p = prepP v gs h n N s g ys ks yks w →
      WitOk ms.length (numCts ms.length ys.length) w ∧
      cm = Ped.commitment gs h n ms om ∧ cr = Ped.commitment gs h n rs orr ∧
      ∀ H, ∃ c : Nat, (∃ st m1, requestChallenge H v st m1 = .ok (c : Int)) ∧
        c < 2 ^ v.params.chal.toNat ∧
        generateRequest H v ms rs pk cm om cr orr d =
          if (∀ r ∈ w.enc, RandOk N r) ∧ ∀ r ∈ dw.enc, RandOk N r then
            .ok (reqP p, proofP p c dw, vecB w.as)
          else .err .invalidArgument := by
  have M := S.made
  have Gd := M.good
  have hn := M.n0
  have U := M.units
  obtain ⟨wk, wy, dK, dY, hdk, hdy, hkeys⟩ := R.keys
  obtain ⟨k, y, hk1, hk2, hy1, hy2, hg⟩ := M.generateKeys_ok wk wy hdk hdy
  rw [hg] at hkeys
  simp only [Res.ok.injEq, Prod.mk.injEq] at hkeys
  obtain ⟨rfl, rfl⟩ := hkeys
  have K := M.keyOk (keyCts_wf U k dK) (keyCts_wf U y dY) (keyCts_length ..) (keyCts_length ..)
  refine ⟨_, _, K, ?_⟩
  rintro d _ rfl _ rfl _ rfl
  have vm : Ped.Valid gs ms om := ⟨R.sizes.2, fun m hm => (R.messages m hm).1, R.openings.1⟩
  have vr : Ped.Valid gs rs orr :=
    ⟨by rw [R.sizes.1]; exact R.sizes.2, fun m hm => (R.nonces m hm).1, R.openings.2⟩
  have ecm := R.commitMessages
  have ecr := R.commitNonces
  rw [Gd.commit vm] at ecm
  rw [Gd.commit vr] at ecr
  cases ecm
  cases ecr
  refine ⟨M.secretP_ok d R.sizes.1 (fun m hm => (R.messages m hm).1)
    (fun m hm => (R.nonces m hm).1) R.openings.1 R.openings.2 ys.length, rfl, rfl, fun H => ?_⟩
  obtain ⟨c, hc, hc0, hc1, hgen⟩ := M.generateRequest_eq H K d R.sizes.1 R.sizes.2
    (fun m hm => (R.messages m hm).1) (fun m hm => (R.nonces m hm).1) R.openings.1 R.openings.2
    (Ped.commitment_nonneg hn _ _) (Ped.commitment_nonneg hn _ _)
  obtain ⟨c, rfl⟩ := Int.eq_ofNat_of_zero_le hc0
  exact ⟨c, ⟨_, _, hc⟩, by exact_mod_cast hc1, hgen⟩

/-- **C100**, requests.  Take an honest request `(req, π₀, st)`.  Fix the challenge `c`, draw the
masks afresh, and for each draw let the hash function be any that leads to that challenge.  With the
`7 L + 7 + K` masks (`L` messages, `K` ciphertexts) uniform below their bounds, what
`GenerateRequestAndProof` returns is distributed like the request together with a simulated proof,
up to a statistical distance of `(7 L + 7 + K) / 2 ^ security + K (N - φ(N)) / N`.  (The second
summand is the probability that one of the masks of the encryption randomness is not coprime to
`N`.) -/
theorem C100_request (S : BbSetup gs h n N s g ys xs v sk) (pk : BbPublicKey) (bsk : BbPrivateKey)
    (ms rs : List Int) (cm om cr orr : Int) (R : BbRun gs N ys v pk bsk ms rs cm om cr orr)
    (hom : om < n) (horr : orr < n) (H₀ : Hashes) (d : ReqDraws) (req : BbRequest)
    (π₀ : BbReqProof) (st : List Bytes)
    (h₀ : generateRequest H₀ v ms rs pk cm om cr orr d = .ok (req, π₀, st)) (c : Nat)
    (H : (ReqMask ms.length (numCts ms.length ys.length) → Nat) → Hashes)
    (hc : ∀ a ∈ Box (reqBounds v n N ms.length (numCts ms.length ys.length)), ∀ req' π st',
      generateRequest (H a) v ms rs pk cm om cr orr (remask d a) = .ok (req', π, st') →
      BN.ofBytes π.challenge = c) :
    StatClose (Box (reqBounds v n N ms.length (numCts ms.length ys.length)))
      (fun a => generateRequest (H a) v ms rs pk cm om cr orr (remask d a))
      (fun a => .ok (req,
        simRequest π₀.commitAs π₀.commitBs π₀.commitAlphas π₀.commitGammas c a, st))
      ((7 * ms.length + 7 + numCts ms.length ys.length) * N +
        numCts ms.length ys.length * (N - N.totient) * 2 ^ v.params.sec.toNat)
      (2 ^ v.params.sec.toNat * N) := by
  have M := S.made
  have hn := M.n0
  have hq := M.order
  have hN := M.N1
  obtain ⟨ks, yks, KO, form⟩ := request_form S R
  have small : ∀ c : Nat, c < 2 ^ v.params.chal.toNat → ∀ i, _ := fun c hcl i =>
    M.shift_small d R.sizes.1 R.messages R.nonces hom horr hcl i
  have remask_eq : ∀ a, a ∈ Box (reqBounds v n N ms.length (numCts ms.length ys.length)) → _ :=
    fun a ha => M.dummyP_remask d ha
  generalize numCts ms.length ys.length = K at *
  obtain ⟨w, hw⟩ : ∃ w, w = secretP v n N ys.length ms rs om orr d := ⟨_, rfl⟩
  obtain ⟨p, hp⟩ : ∃ p, p = prepP v gs h n N s g ys ks yks w := ⟨_, rfl⟩
  obtain ⟨W, -, -, form₀⟩ := form d w hw _ rfl p hp
  obtain ⟨c₀, -, -, e₀⟩ := form₀ H₀
  rw [h₀] at e₀
  split at e₀
  swap
  · cases e₀
  rename_i hu₀
  simp only [Res.ok.injEq, Prod.mk.injEq] at e₀
  obtain ⟨rfl, rfl, rfl⟩ := e₀
  have hpos : ∀ i, 0 < reqBounds v n N ms.length K i := by
    have h1 : 0 < n.toNat := by omega
    have h2 : 0 < v.group.order := by omega
    have h3 : 0 < N := by omega
    intro i
    rcases i with ⟨m, i⟩ | m | j
    · cases m <;> simp only [reqBounds] <;> positivity
    · cases m <;> simp only [reqBounds] <;> positivity
    · simp only [reqBounds]; positivity
  -- the real experiment
  have run : ∀ a ∈ Box (reqBounds v n N ms.length K),
      (∀ j, RandOk N (a (.inr (.inr j)))) → c < 2 ^ v.params.chal.toNat ∧
      generateRequest (H a) v ms rs pk cm om cr orr (remask d a) =
        .ok (reqP p, simRequest (vecB p.commitAs) (encB p.commitBs) (encB p.commitAlphas)
          (encB p.commitGammas) c (fun i => a i + reqShift c w i), vecB w.as) := by
    intro a ha hu
    obtain ⟨-, -, -, form'⟩ := form (remask d a) w hw (witOf a) (remask_eq a ha).symm p hp
    obtain ⟨c', -, h2, e⟩ := form' (H a)
    have hw' : ∀ r ∈ (witOf a).enc, RandOk N r := by
      intro r hr
      obtain ⟨j, rfl⟩ := List.mem_ofFn.1 hr
      exact hu j
    rw [if_pos ⟨hu₀.1, hw'⟩] at e
    · have := hc a ha _ _ _ e
      have hch : BN.ofBytes (proofP p (c' : Int) (witOf a)).challenge = (c' : Int) :=
        ofBytes_encB (by omega)
      rw [hch] at this
      have hcc : c' = c := by exact_mod_cast this
      subst hcc
      refine ⟨h2, e.trans ?_⟩
      have e2 : proofP p (c' : Int) (witOf a) = simRequest (vecB p.commitAs) (encB p.commitBs)
          (encB p.commitAlphas) (encB p.commitGammas) c' (fun i => a i + reqShift c' w i) := by
        have hpw : p.witness = w := by rw [hp]; rfl
        rw [← m2P_witOf, ← mask_witOf c' a W, ← hpw]
        rfl
      rw [e2]
  have hcl : c < 2 ^ v.params.chal.toNat :=
    (run (fun _ => 0) (mem_box.2 hpos) (fun j => .inr rfl)).1
  -- draws that the generator refuses
  have hbadj : ∀ j : Fin K, ((Finset.range (reqBounds v n N ms.length K (.inr (.inr j)))).filter
      fun x : Nat => ¬ RandOk N (x : Int)).card * N ≤
      (N - N.totient) * reqBounds v n N ms.length K (.inr (.inr j)) := by
    intro j
    simp only [reqBounds]
    have h1 : ((Finset.range (N * 2 ^ (v.params.chal + v.params.sec).toNat)).filter
        fun x : Nat => ¬ RandOk N (x : Int)).card ≤
        2 ^ (v.params.chal + v.params.sec).toNat * (N - N.totient) := by
      rw [← card_not_coprime]
      apply Finset.card_le_card
      intro x hx
      rw [Finset.mem_filter] at hx ⊢
      refine ⟨hx.1, fun hcop => hx.2 (.inl ?_)⟩
      rw [Int.gcd_natCast_natCast, Nat.gcd_comm]
      exact hcop
    calc _ ≤ 2 ^ (v.params.chal + v.params.sec).toNat * (N - N.totient) * N :=
          Nat.mul_le_mul_right _ h1
      _ = _ := by ring
  obtain ⟨V, hV, hVm, hVc⟩ := exists_bad (reqBounds v n N ms.length K)
    (fun j : Fin K => .inr (.inr j)) (fun _ (x : Nat) => ¬ RandOk N (x : Int)) hpos
    (N - N.totient) N hbadj
  have key := close_of_shift_bad (reqBounds v n N ms.length K) (reqShift c w) (fun _ => 1)
    (2 ^ v.params.sec.toNat) hpos
    (fun i => by rw [hw]; exact small c hcl i) V hV _ N hVc
    (fun a => generateRequest (H a) v ms rs pk cm om cr orr (remask d a))
    (fun a => .ok (reqP p, simRequest (vecB p.commitAs) (encB p.commitBs) (encB p.commitAlphas)
      (encB p.commitGammas) c a, vecB w.as)) (fun a ha hna _ => (run a ha fun j => not_not.1 (hVm a ha hna j)).2)
  have hsum : (∑ _i : ReqMask ms.length K, 1) = 7 * ms.length + 7 + K := by
    rw [Finset.sum_const, Finset.card_univ, smul_eq_mul, mul_one]
    simp only [Fintype.card_sum, Fintype.card_prod, Fintype.card_fin]
    have h1 : Fintype.card VecMask = 7 := rfl
    have h2 : Fintype.card OneMask = 7 := rfl
    rw [h1, h2]
    omega
  rw [hsum, Fintype.card_fin] at key
  exact key

/-- **C100**: a simulated request proof, with responses below the bounds of the masks and responses
for the encryption randomness that are usable, is accepted when the hash function answers the
challenge it was made for; `m1` is the first message that `VerifyRequest` recomputes. -/
theorem C100_request_accepted (S : BbSetup gs h n N s g ys xs v sk) (pk : BbPublicKey)
    (bsk : BbPrivateKey) (ms rs : List Int) (cm om cr orr : Int)
    (R : BbRun gs N ys v pk bsk ms rs cm om cr orr) (H₀ : Hashes) (d : ReqDraws) (req : BbRequest)
    (π₀ : BbReqProof) (st : List Bytes)
    (h₀ : generateRequest H₀ v ms rs pk cm om cr orr d = .ok (req, π₀, st)) (c : Nat)
    (a : ReqMask ms.length (numCts ms.length ys.length) → Nat)
    (ha : a ∈ Box (reqBounds v n N ms.length (numCts ms.length ys.length)))
    (hu : ∀ j, Usable N (a (.inr (.inr j)))) :
    ∃ m1 : BbReqMessage1, ∀ H,
      requestChallenge H v ⟨v.params, pk, BN.natToBytes cm.toNat, BN.natToBytes cr.toNat,
        π₀.commitAs, π₀.commitBs, π₀.commitAlphas, π₀.commitGammas, req⟩ m1 = .ok (c : Int) →
      verifyRequest H v pk req
        (simRequest π₀.commitAs π₀.commitBs π₀.commitAlphas π₀.commitGammas c a) cm cr = .ok () := by
  have M := S.made
  have hn := M.n0
  have Gd := M.good
  have U := M.units
  have hq := M.order
  have hlen := M.len0
  obtain ⟨cfg, P⟩ := M.pub
  obtain ⟨ks, yks, KO, form⟩ := request_form S R
  obtain ⟨W, ecm, ecr, form₀⟩ := form d _ rfl _ rfl _ rfl
  obtain ⟨c₀, -, -, e₀⟩ := form₀ H₀
  rw [h₀] at e₀
  split at e₀
  swap
  · cases e₀
  simp only [Res.ok.injEq, Prod.mk.injEq] at e₀
  obtain ⟨rfl, rfl, rfl⟩ := e₀
  set w := secretP v n N ys.length ms rs om orr d with hw
  set p := prepP v gs h n N s g ys ks yks w with hp
  have hc0 : (0 : Int) ≤ (c : Int) := by omega
  have Z : WitOk ms.length (numCts ms.length ys.length) (witOf a) := witOf_ok a
  have hcm0 : 0 ≤ cm := by rw [ecm]; exact Ped.commitment_nonneg hn _ _
  have hcr0 : 0 ≤ cr := by rw [ecr]; exact Ped.commitment_nonneg hn _ _
  have cU : ∀ ms r, Int.gcd (Ped.commitment gs h n ms r) n = 1 := Ped.commitment_unit M.gsU M.hU
  have casU : ∀ x ∈ p.commitAs, Int.gcd x n = 1 := comAsP_unit M.gsU M.hU _ _ _
  have uA : Int.gcd p.commitAlphas n = 1 := accP_unit (cU _ _) casU
  have uG : Int.gcd p.commitGammas n = 1 := accP_unit (cU _ _) casU
  have nA : 0 ≤ p.commitAlphas := accP_nonneg hn (Ped.commitment_emod _ _)
  have nG : 0 ≤ p.commitGammas := accP_nonneg hn (Ped.commitment_emod _ _)
  have lA : p.commitAs.length = ms.length := by simp [p, prepP, comAsP, w, secretP]
  have lC : p.cts.length = numCts ms.length ys.length := by simp [p, prepP, ctsP, w, secretP]
  have wcts := ctsP_wf (q := (v.group.order : Int)) U KO.wks KO.wyks KO.lk KO.ly w
  have wz := ctsP_wf (q := (v.group.order : Int)) U KO.wks KO.wyks KO.lk KO.ly (witOf a)
  -- unmasking always succeeds
  have um : ∀ masked value, Int.gcd value n = 1 →
      ∃ D, unmask v.ped (c : Int) masked value = .ok D ∧ 0 ≤ D := by
    intro masked value hg
    obtain ⟨i, h1, _, _⟩ := recover hn hg c
    refine ⟨masked * i % n, ?_, Int.emod_nonneg _ hn.ne'⟩
    unfold unmask Ped.multiply Ped.add
    rw [Gd.n_eq, modExp_ok hc0 hn.ne', Res.ok_bind, Int.toNat_natCast, h1, Res.ok_bind,
      modMul_ok hn.ne']
  have umc : ∀ masked value, Wf ((N : Int) ^ (s + 1)) ys.length masked →
      Wf ((N : Int) ^ (s + 1)) ys.length value →
      ∃ D : CsCt, unmaskCt v.cs (c : Int) masked value = .ok D ∧ 0 ≤ D.u ∧ ∀ e ∈ D.es, 0 ≤ e := by
    intro masked value w1 w2
    have hM := modulus_pos P
    obtain ⟨i, h1, _, _⟩ := recover hM w2.uU c
    have hes : ∀ e ∈ (mulP ((N : Int) ^ (s + 1)) value c).es,
        BN.modInverse e ((N : Int) ^ (s + 1)) = .ok (BN.inv e ((N : Int) ^ (s + 1))) := by
      intro e he
      exact BN.modInverse_ok hM ((w2.mul hM c).es e he).2.2
    refine ⟨⟨masked.u * i % ((N : Int) ^ (s + 1)), List.zipWith
      (fun x y => x * y % ((N : Int) ^ (s + 1))) masked.es
      ((mulP ((N : Int) ^ (s + 1)) value c).es.map fun e => BN.inv e ((N : Int) ^ (s + 1)))⟩, ?_,
      Int.emod_nonneg _ hM.ne', ?_⟩
    · unfold unmaskCt
      rw [multiply_ok P w2.len hc0, Res.ok_bind, P.hmod]
      show (do
        let u ← BN.modInverse (value.u ^ (c : Int).toNat % ((N : Int) ^ (s + 1))) _
        let es ← (mulP ((N : Int) ^ (s + 1)) value c).es.mapM
          (fun e => BN.modInverse e ((N : Int) ^ (s + 1)))
        Cs.add v.cs masked ⟨u, es⟩) = _
      rw [Int.toNat_natCast, h1, Res.ok_bind, mapM_eq_map hes, Res.ok_bind,
        add_ok P w1.len (by simp [mulP, w2.len])]
      rfl
    · intro e he
      simp only at he
      obtain ⟨j, hj, rfl⟩ := List.mem_iff_getElem.1 he
      simp only [List.getElem_zipWith]
      exact Int.emod_nonneg _ hM.ne'
  have mapOk : ∀ {α β : Type} {f : α → Res β} {Q : β → Prop} (l : List α),
      (∀ x ∈ l, ∃ y, f x = .ok y ∧ Q y) → ∃ r, l.mapM f = .ok r ∧ ∀ y ∈ r, Q y := by
    intro α β f Q l
    induction l with
    | nil => intro _; exact ⟨[], rfl, by simp⟩
    | cons x l ih =>
      intro hx
      obtain ⟨y, hy, hq⟩ := hx x (by simp)
      obtain ⟨r, hr, hrq⟩ := ih (fun z hz => hx z (by simp [hz]))
      refine ⟨y :: r, ?_, ?_⟩
      · rw [List.mapM_cons, hy, Res.ok_bind, hr, Res.ok_bind]; rfl
      · intro z hz
        rcases List.mem_cons.1 hz with rfl | hz
        · exact hq
        · exact hrq z hz
  set com := comP gs h n p.commitAs (witOf a) with hcom
  obtain ⟨D1, u1, n1⟩ := um com.1 cm (by rw [ecm]; exact cU _ _)
  obtain ⟨D2, u2, n2⟩ := um com.2.1 cr (by rw [ecr]; exact cU _ _)
  obtain ⟨D3, u3, n3⟩ := mapOk (f := fun x => unmask v.ped (c : Int) x.1 x.2) (Q := fun D => 0 ≤ D)
    (com.2.2.1.zip p.commitAs) (fun x hx => um _ _ (casU _ (List.of_mem_zip hx).2))
  obtain ⟨D4, u4, n4⟩ := um com.2.2.2.1 p.commitBs (cU _ _)
  obtain ⟨D5, u5, n5⟩ := um com.2.2.2.2.1 p.commitAlphas uA
  obtain ⟨D6, u6, n6⟩ := um com.2.2.2.2.2.1 p.commitAlphas uA
  obtain ⟨D7, u7, n7⟩ := um com.2.2.2.2.2.2.1 p.commitGammas uG
  obtain ⟨D8, u8, n8⟩ := um com.2.2.2.2.2.2.2 p.commitGammas uG
  obtain ⟨D9, u9, n9⟩ := mapOk (f := fun x => unmaskCt v.cs (c : Int) x.1 x.2)
    (Q := fun D => 0 ≤ D.u ∧ ∀ e ∈ D.es, 0 ≤ e)
    ((ctsP v.group.order ((N : Int) ^ (s + 1)) N g ys ks yks (witOf a)).zip p.cts)
    (fun x hx => umc _ _ (wz _ (List.of_mem_zip hx).1) (wcts _ (List.of_mem_zip hx).2))
  have ctp : D9.mapM Cs.ciphertextToProto = .ok (D9.map ctB) := by
    apply mapM_eq_map
    intro D hD
    unfold Cs.ciphertextToProto
    rw [toBytes_encB (n9 D hD).1, Res.ok_bind, toProto_vecB (n9 D hD).2]
    rfl
  refine ⟨⟨encB D1, encB D2, vecB D3, encB D4, encB D5, encB D6, encB D7, encB D8, D9.map ctB⟩, ?_⟩
  intro H hch
  change requestChallenge H v (stP v pk cm cr p) _ = _ at hch
  have eπ : simRequest (proofP p c₀ (dummyP v n N ys.length ms.length d)).commitAs
      (proofP p c₀ (dummyP v n N ys.length ms.length d)).commitBs
      (proofP p c₀ (dummyP v n N ys.length ms.length d)).commitAlphas
      (proofP p c₀ (dummyP v n N ys.length ms.length d)).commitGammas c a =
      ⟨vecB p.commitAs, encB p.commitBs, encB p.commitAlphas, encB p.commitGammas, encB (c : Int),
        m2P (witOf a)⟩ := (m2P_witOf _ _ _ _ _ _).symm
  rw [eπ]
  set π : BbReqProof := ⟨vecB p.commitAs, encB p.commitBs, encB p.commitAlphas,
    encB p.commitGammas, encB (c : Int), m2P (witOf a)⟩ with hπ
  have hsz : requestSizes v (reqP p) π = .ok () := by
    unfold requestSizes
    have num : (reqP p).num = ms.length := rfl
    have l0 : π.commitAs.length = ms.length := by simp [π, vecB_length, lA]
    have l1 : π.message2.messages.length = ms.length := by
      show (vecB _).length = _; rw [vecB_length]; exact Z.messages.1
    have l2 : π.message2.rs.length = ms.length := by
      show (vecB _).length = _; rw [vecB_length]; exact Z.rs.1
    have l3 : π.message2.as.length = ms.length := by
      show (vecB _).length = _; rw [vecB_length]; exact Z.as.1
    have l4 : π.message2.bs.length = ms.length := by
      show (vecB _).length = _; rw [vecB_length]; exact Z.bs.1
    have l5 : π.message2.alphas.length = ms.length := by
      show (vecB _).length = _; rw [vecB_length]; exact Z.alphas.1
    have l6 : π.message2.gammas.length = ms.length := by
      show (vecB _).length = _; rw [vecB_length]; exact Z.gammas.1
    have l7 : π.message2.enc.length = numCts ms.length ys.length := by
      show (vecB _).length = _; rw [vecB_length]; exact Z.enc.1
    have l8 : (reqP p).cts.length = numCts ms.length ys.length := by
      simp only [reqP, List.length_map]; exact lC
    rw [num, l0, l1, l2, l3, l4, l5, l6, l7, l8, Gd.gs_eq, P.hlen]
    simp only [ne_eq, not_true, if_false]
    rw [if_neg (by have := R.sizes.2; omega), if_neg (by omega)]
  have hparse : (reqP p).cts.mapM (Cs.parseCiphertextProto v.cs) = .ok p.cts :=
    Wf.parses P (l := p.cts) wcts
  have hm2 : π.message2.parse = witOf a := (m2P_ok Z).2
  have hpa : parseBigNumVectorProto π.commitAs = p.commitAs := parse_vecB (comAsP_nonneg hn _ _ _)
  have hbs : BN.ofBytes π.commitBs = p.commitBs := ofBytes_encB (Ped.commitment_nonneg hn _ _)
  have hal : BN.ofBytes π.commitAlphas = p.commitAlphas := ofBytes_encB nA
  have hga : BN.ofBytes π.commitGammas = p.commitGammas := ofBytes_encB nG
  have hbc : BN.ofBytes π.challenge = (c : Int) := ofBytes_encB hc0
  have r1 : requestBounds v (witOf a) = .ok () := by
    rw [mem_box] at ha
    have hT : (0 : Int) < 2 ^ tBits v := by positivity
    have p1 : (2 : Int) ^ (tBits v + 1) = 2 ^ tBits v * 2 := pow_succ _ _
    have p2 : (2 : Int) ^ (2 * tBits v + 1) = 2 ^ tBits v * 2 ^ tBits v * 2 := by ring
    have bnd : ∀ (m : VecMask) (b : Int),
        (∀ i : Fin ms.length, (reqBounds v n N ms.length (numCts ms.length ys.length) (.inl (m, i)) : Int)
          ≤ b) → ∀ x ∈ intVec (fun i => a (.inl (m, i))), x < b := by
      intro m b hb x hx
      obtain ⟨i, rfl⟩ := List.mem_ofFn.1 hx
      have h1 := ha (.inl (m, i))
      have h2 := hb i
      show ((a (.inl (m, i)) : Nat) : Int) < b
      exact lt_of_lt_of_le (by exact_mod_cast h1) h2
    have b1 := bnd .messages (v.group.order * (2 ^ tBits v * 2)) (fun i => by
      simp only [reqBounds]; push_cast; change (v.group.order : Int) * 2 ^ tBits v ≤ _; nlinarith)
    have b2 := bnd .as (v.group.order * (2 ^ tBits v * 2)) (fun i => by
      simp only [reqBounds]; push_cast; change (v.group.order : Int) * 2 ^ tBits v ≤ _; nlinarith)
    have b3 := bnd .bs (v.group.order * v.group.order * (2 ^ tBits v * 2 ^ tBits v * 2)) (fun i => by
      simp only [reqBounds]; push_cast
      change (v.group.order : Int) * v.group.order * 2 ^ tBits v * 2 ^ tBits v ≤ _
      have : (0 : Int) ≤ v.group.order * v.group.order * 2 ^ tBits v * 2 ^ tBits v := by positivity
      linarith)
    have b4 := bnd .alphas (v.group.order * (2 ^ tBits v * 2) * v.group.order) (fun i => by
      simp only [reqBounds]; push_cast
      change (v.group.order : Int) * 2 ^ tBits v * v.group.order ≤ _
      have : (0 : Int) ≤ v.group.order * 2 ^ tBits v * v.group.order := by positivity
      linarith)
    have b5 := bnd .gammas (v.group.order * (2 ^ tBits v * 2) * v.group.order) (fun i => by
      simp only [reqBounds]; push_cast
      change (v.group.order : Int) * 2 ^ tBits v * v.group.order ≤ _
      have : (0 : Int) ≤ v.group.order * 2 ^ tBits v * v.group.order := by positivity
      linarith)
    unfold requestBounds
    simp only [M.shift_t1, M.shift_2t1, Res.ok_bind, p1, p2]
    have a1 := any_ge_false b1
    have a2 := any_ge_false b2
    have a3 := any_ge_false b3
    have a4 := any_ge_false b4
    have a5 := any_ge_false b5
    show (if ((witOf a).messages.any _ = true ∨ _) then _ else _) = _
    simp only [witOf, a1, a2, a3, a4, a5]
    simp
  have r2 : commitments v.ped p.commitAs (witOf a) = .ok com := commitments_ok Gd hn Z R.sizes.2 lA
  have r3 := M.ciphertexts_eq KO Z
  rw [if_pos (by
    intro r hr
    obtain ⟨j, rfl⟩ := List.mem_ofFn.1 hr
    exact hu j)] at r3
  have r4 : recompute v π cm cr p.cts com
      (ctsP v.group.order ((N : Int) ^ (s + 1)) N g ys ks yks (witOf a)) =
      .ok ⟨D1, D2, D3, D4, D5, D6, D7, D8, D9⟩ := by
    unfold recompute
    simp only [hbc, hpa, hbs, hal, hga, u1, u2, u3, u4, u5, u6, u7, u8, u9, Res.ok_bind, Res.pure_eq]
  have r5 : Composites.toProto ⟨D1, D2, D3, D4, D5, D6, D7, D8, D9⟩ =
      .ok ⟨encB D1, encB D2, vecB D3, encB D4, encB D5, encB D6, encB D7, encB D8, D9.map ctB⟩ := by
    unfold Composites.toProto
    simp only [toBytes_encB n1, toBytes_encB n2, toProto_vecB n3, toBytes_encB n4, toBytes_encB n5,
      toBytes_encB n6, toBytes_encB n7, toBytes_encB n8, ctp, Res.ok_bind, Res.pure_eq]
  unfold verifyRequest
  simp only [hsz, Res.ok_bind, toBytes_encB hcm0, toBytes_encB hcr0, hparse, hm2, r1, hpa, r2,
    KO.parse, r3, hbc, r4, r5]
  change (requestChallenge H v (stP v pk cm cr p) _ >>= _) = _
  rw [hch, Res.ok_bind]
  simp

/-! ### The hypotheses are met -/

/-- With a hash function that ignores its input, every challenge is the same. -/
theorem requestChallenge_fixed (S : BbSetup gs h n N s g ys xs v sk) (k : Bytes) : ∃ c : Nat,
    Ctx.randomOracleSha512 (Ped.fixedHash k) [] (2 ^ v.params.chal.toNat) = .ok (c : Int) ∧
    ∀ st m1, requestChallenge (Ped.fixedHash k) v st m1 = .ok (c : Int) := by
  have M := S.made
  have hb := M.chal
  obtain ⟨c, hc, h0, -⟩ := Ped.oracle_ok (Ped.fixedHash k) [] (len := v.params.chal.toNat) (by omega)
  obtain ⟨c, rfl⟩ := Int.eq_ofNat_of_zero_le h0
  refine ⟨c, hc, fun st m1 => ?_⟩
  unfold requestChallenge
  rw [M.chalBound, Res.ok_bind, Ped.oracle_fixed k _ [], hc]

/-- So the hypothesis on the hash functions of `C100_request` can be met for every setup. -/
theorem request_met (S : BbSetup gs h n N s g ys xs v sk) {pk : BbPublicKey} {bsk : BbPrivateKey}
    {ms rs : List Int} {cm om cr orr : Int} (R : BbRun gs N ys v pk bsk ms rs cm om cr orr)
    (k : Bytes) : ∃ c : Nat, ∀ d req' π st',
      generateRequest (Ped.fixedHash k) v ms rs pk cm om cr orr d = .ok (req', π, st') →
      BN.ofBytes π.challenge = c := by
  obtain ⟨c, -, hc⟩ := requestChallenge_fixed S k
  refine ⟨c, ?_⟩
  intro d req' π st' e
  obtain ⟨ks, yks, -, form⟩ := request_form S R
  obtain ⟨-, -, -, form'⟩ := form d _ rfl _ rfl _ rfl
  obtain ⟨c', ⟨st, m1, hc'⟩, -, e'⟩ := form' (Ped.fixedHash k)
  rw [hc] at hc'
  cases hc'
  rw [e] at e'
  split at e'
  · simp only [Res.ok.injEq, Prod.mk.injEq] at e'
    obtain ⟨-, rfl, -⟩ := e'
    exact ofBytes_encB (by omega)
  · cases e'

/-- The hypotheses of `C100_request` and `C100_request_accepted` hold in the toy instance. -/
example : ∃ (v : BbSig (ZMod 11)) (sk : CsPrivate) (pk : BbPublicKey) (bsk : BbPrivateKey)
    (cm cr : Int) (H₀ : Hashes) (req : BbRequest) (π₀ : BbReqProof) (st : List Bytes) (c : Nat)
    (H : (ReqMask 3 2 → Nat) → Hashes),
    BbSetup toyBbGs 7 46189 221 2 3 toyBbYs toyBbXs v sk ∧
    BbRun toyBbGs 221 toyBbYs v pk bsk [1, 2, 10] [3, 0, 9] cm 55 cr 66 ∧
    (55 : Int) < 46189 ∧ (66 : Int) < 46189 ∧
    generateRequest H₀ v [1, 2, 10] [3, 0, 9] pk cm 55 cr 66 toyReqDraws = .ok (req, π₀, st) ∧
    (∀ a ∈ Box (reqBounds v 46189 221 3 2), ∀ req' π st',
      generateRequest (H a) v [1, 2, 10] [3, 0, 9] pk cm 55 cr 66 (remask toyReqDraws a) =
        .ok (req', π, st') → BN.ofBytes π.challenge = c) ∧
    (∀ st m1, requestChallenge (H fun _ => 0) v st m1 = .ok (c : Int)) ∧
    (fun _ => 1) ∈ Box (reqBounds v 46189 221 3 2) ∧ Usable 221 1 := by
  obtain ⟨v, sk, pk, bsk, cm, cr, H₀, req, π, st, _, _, S, R, hreq, -⟩ := toyBb
  obtain ⟨c, -, hc⟩ := requestChallenge_fixed S []
  obtain ⟨c', hc'⟩ := request_met S R []
  have hcc : c' = c := by
    obtain ⟨ks, yks, -, form⟩ := request_form S R
    obtain ⟨-, -, -, form'⟩ := form toyReqDraws _ rfl _ rfl _ rfl
    obtain ⟨c₁, -, -, e₁⟩ := form' H₀
    obtain ⟨c₂, ⟨_, _, h2⟩, -, e₂⟩ := form' (Ped.fixedHash [])
    rw [hc] at h2
    cases h2
    rw [hreq] at e₁
    split at e₁
    · rename_i hu
      rw [if_pos hu] at e₂
      have := hc' _ _ _ _ e₂
      have k : BN.ofBytes (encB (c : Int)) = (c : Int) := ofBytes_encB (by omega)
      have k2 : (c : Int) = c' := k.symm.trans this
      omega
    · cases e₁
  subst hcc
  refine ⟨v, sk, pk, bsk, cm, cr, H₀, req, π, st, c', fun _ => Ped.fixedHash [], S, R, by decide,
    by decide, hreq, fun a _ req' π st' e => hc' _ _ _ _ e, hc, mem_box.2 ?_, .inl (by decide)⟩
  have hq := S.made.order
  have h2 : 2 ≤ v.group.order := by omega
  have hT : 1 ≤ 2 ^ (v.params.chal + v.params.sec).toNat := Nat.one_le_two_pow
  set T := 2 ^ (v.params.chal + v.params.sec).toNat
  set q := v.group.order
  have f1 : 2 ≤ q * T := Nat.mul_le_mul h2 hT
  have f2 : 2 ≤ q * q * T * T := Nat.mul_le_mul (Nat.mul_le_mul
    (Nat.mul_le_mul h2 (by omega : 1 ≤ q)) hT) hT
  have f3 : 2 ≤ q * T * q := Nat.mul_le_mul f1 (by omega : 1 ≤ q)
  have f4 : 2 ≤ (46189 : Int).toNat * T := Nat.mul_le_mul (by decide : 2 ≤ (46189 : Int).toNat) hT
  have f5 : 2 ≤ (46189 : Int).toNat * T * q * (3 + 1) :=
    Nat.mul_le_mul (Nat.mul_le_mul f4 (by omega : 1 ≤ q)) (by decide : 1 ≤ 3 + 1)
  have f6 : 2 ≤ 221 * T := Nat.mul_le_mul (by decide : 2 ≤ 221) hT
  intro i
  rcases i with ⟨m, i⟩ | m | j
  · cases m <;> simp only [reqBounds] <;> first | exact f1 | exact f2 | exact f3 | exact f4
  · cases m <;> simp only [reqBounds] <;> first | exact f4 | exact f5
  · exact f6

end PJC.Props
