import Verif.Lemmas.BbView
import Verif.Props.Paillier
set_option linter.unusedSectionVars false
/-
C127: all that a requester sends, the commitments, the request and its proof together, is
distributed like something that does not depend on messages and nonces.

As in C100 the challenge is fixed and the hash function is any that leads to it.
-/
namespace PJC.Bb
open PJC.Stat

variable {G : Type} [AddCommGroup G] [DecidableEq G]

/-- The draws of a request for `L` messages in `K` ciphertexts: the masks of the proof, the blinding
factors, the encryption randomness, and the openings of the `L + 3` commitments. -/
abbrev AllDraws (L K : Nat) :=
  (ReqMask L K → Nat) × (BlindMask L → Nat) × (Fin K → Nat) × (Fin L ⊕ Fin 3 → Nat)

/-- Every combination of values below the bounds of the generator
(bb_oblivious_signature.cc:401-471, 531-556, 566-586). -/
def allDraws (v : BbSig G) (n : Int) (N L K : Nat) : Finset (AllDraws L K) :=
  Box (reqBounds v n N L K) ×ˢ Box (blindBounds v L) ×ˢ Box (fun _ : Fin K => N) ×ˢ
    Box (fun _ : Fin L ⊕ Fin 3 => n.toNat)

/-- The draws as the model of the generator takes them. -/
def drawsOf {L K : Nat} (t : AllDraws L K) : ReqDraws :=
  remask
    { a := drawFn fun i => t.2.1 (.inl i)
      b := drawFn fun i => t.2.1 (.inr i)
      enc := drawFn t.2.2.1
      openA := drawFn fun i => t.2.2.2 (.inl i)
      openB := t.2.2.2 (.inr 0)
      openAlphas := t.2.2.2 (.inr 1)
      openGammas := t.2.2.2 (.inr 2)
      messages := fun _ => 0, rs := fun _ => 0, as := fun _ => 0, asOpen := fun _ => 0
      bs := fun _ => 0, alphas := fun _ => 0, gammas := fun _ => 0, messagesOpen := 0, rsOpen := 0
      bsOpen := 0, alphasOpen1 := 0, alphasOpen2 := 0, gammasOpen1 := 0, gammasOpen2 := 0
      dummyEnc := fun _ => 0 } t.1

/-- Specification: the encryption with randomness `r` of the values `zs` in slots `i len`,
`i len + 1`, ..., serialized. -/
def simCt (N s : Nat) (g : Int) (ys zs : List Int) (i r : Nat) : CsCtProto :=
  ⟨BN.natToBytes (g ^ r % (N : Int) ^ (s + 1)).toNat, (List.range ys.length).map fun j =>
    BN.natToBytes (ys.getD j 0 ^ r * (1 + N) ^ (zs.getD (i * ys.length + j) 0).toNat %
      (N : Int) ^ (s + 1)).toNat⟩

/-- Specification: a power of the base of the commitments, serialized. -/
def simCom (h n : Int) (o : Nat) : Bytes := BN.natToBytes (h ^ o % n).toNat

/-- Specification: a simulated request and proof, made of public values and the challenge only:
encryptions of random values, random powers of `h`, random responses. -/
def simView (v : BbSig G) (h n : Int) (N s : Nat) (g : Int) (ys : List Int) (L K c : Nat)
    (t : AllDraws L K) : BbRequest × BbReqProof :=
  (⟨L, List.ofFn fun i : Fin K => simCt N s g ys (blindValues v t.2.1) i (t.2.2.1 i)⟩,
    simRequest (List.ofFn fun i : Fin L => simCom h n (t.2.2.2 (.inl i)))
      (simCom h n (t.2.2.2 (.inr 0))) (simCom h n (t.2.2.2 (.inr 1))) (simCom h n (t.2.2.2 (.inr 2)))
      c t.1)

/-- What the signer receives: the request and the proof, not the state that the requester keeps. -/
def sent (r : Res (BbRequest × BbReqProof × List Bytes)) : Res (BbRequest × BbReqProof) := do
  let (req, π, _) ← r
  return (req, π)

/-- Specification: how far from the simulation a request for `L` messages in `K` ciphertexts may be,
when `h ^ Mh = 1` modulo `n` and `g ^ Mg = 1` modulo `N ^ (s + 1)`. -/
def viewError (v : BbSig G) (n : Int) (N L K Mh Mg : Nat) : ℚ :=
  ((7 * L + 7 + K : Nat) : ℚ) / 2 ^ v.params.sec.toNat + 2 * (K * (N - N.totient : Nat) / N) +
    ((L + 3 : Nat) : ℚ) * (n.toNat % Mh : Nat) / n.toNat + (K : ℚ) * (N % Mg : Nat) / N +
    (L : ℚ) / 2 ^ (v.params.chal + v.params.sec).toNat

end PJC.Bb

namespace PJC.Props
open PJC.Bb PJC.DJ PJC.Stat

variable {G : Type} [AddCommGroup G] [DecidableEq G]
variable {gs : List Int} {h n : Int} {N s : Nat} {g : Int} {ys xs : List Int} {v : BbSig G}
  {sk : CsPrivate}

theorem remask_drawsOf {L K : Nat} (a a' : ReqMask L K → Nat) (u : (BlindMask L → Nat) ×
    (Fin K → Nat) × (Fin L ⊕ Fin 3 → Nat)) : remask (drawsOf (a, u)) a' = drawsOf (a', u) := rfl

/-- The request of a draw with a simulated proof. -/
def proofSim (v : BbSig G) (gs : List Int) (h n : Int) (N s : Nat) (g : Int) (ys ms rs : List Int)
    (om orr : Int) (ks yks : List CsCt) (c : Nat) {L K : Nat} (t : AllDraws L K) :
    BbRequest × BbReqProof :=
  let p := prepP v gs h n N s g ys ks yks (secretP v n N ys.length ms rs om orr (drawsOf t))
  (reqP p, simRequest (vecB p.commitAs) (encB p.commitBs) (encB p.commitAlphas)
    (encB p.commitGammas) c t.1)

theorem secretP_enc {v : BbSig G} {L K : Nat} {ms rs : List Int} {om orr : Int}
    (hK : numCts ms.length ys.length = K) {t : AllDraws L K}
    (he : t.2.2.1 ∈ Box (fun _ : Fin K => N)) :
    (secretP v n N ys.length ms rs om orr (drawsOf t)).enc = intVec t.2.2.1 := by
  show drawP (numCts ms.length ys.length) N (drawFn t.2.2.1) = intVec t.2.2.1
  rw [hK]
  exact drawP_drawFn fun i => by exact_mod_cast mem_box.1 he i

/-- The first step: the proof is replaced by a simulated one. -/
theorem view_proof (S : BbSetup gs h n N s g ys xs v sk) (pk : BbPublicKey) (bsk : BbPrivateKey)
    (ms rs : List Int) (cm om cr orr : Int) (R : BbRun gs N ys v pk bsk ms rs cm om cr orr)
    (hom : om < n) (horr : orr < n) (K : Nat) (hK : numCts ms.length ys.length = K)
    (ks yks : List CsCt) (hpk : parseKeys v.cs pk = .ok (ks, yks))
    (c : Nat) (H : AllDraws ms.length K → Hashes)
    (hc : ∀ t ∈ allDraws v n N ms.length K, ∀ req π st,
      generateRequest (H t) v ms rs pk cm om cr orr (drawsOf t) = .ok (req, π, st) →
      BN.ofBytes π.challenge = c) :
    Close (allDraws v n N ms.length K)
      (fun t => sent (generateRequest (H t) v ms rs pk cm om cr orr (drawsOf t)))
      (fun t => if ∀ j, RandOk N (t.2.2.1 j) then
        .ok (proofSim v gs h n N s g ys ms rs om orr ks yks c t) else .err .invalidArgument)
      (((7 * ms.length + 7 + K : Nat) : ℚ) / 2 ^ v.params.sec.toNat +
        K * (N - N.totient : Nat) / N) := by
  have Md := S.made
  have hq := Md.order
  have hn := Md.n0
  have hn' : 0 < n.toNat := by omega
  have hN1 := Md.N1
  have hN0 : 0 < N := by omega
  obtain ⟨ks', yks', KO, form⟩ := request_form S R
  have := KO.parse
  rw [hpk] at this
  simp only [Res.ok.injEq, Prod.mk.injEq] at this
  obtain ⟨rfl, rfl⟩ := this
  refine Close.fst fun b hb => ?_
  obtain ⟨b, e, o⟩ := b
  simp only [Finset.mem_product] at hb
  obtain ⟨hb, he, ho⟩ := hb
  by_cases hok : ∀ j, RandOk N (e j)
  · have z0 : (fun _ => 0) ∈ Box (reqBounds v n N ms.length K) := by
      rw [mem_box]
      have h2 : 0 < v.group.order := by omega
      intro i
      rcases i with ⟨m, i⟩ | m | j
      · cases m <;> simp only [reqBounds] <;> positivity
      · cases m <;> simp only [reqBounds] <;> positivity
      · simp only [reqBounds]; positivity
    obtain ⟨t0, ht0⟩ : ∃ t0 : AllDraws ms.length K, t0 = ((fun _ => 0), b, e, o) := ⟨_, rfl⟩
    obtain ⟨W0, -, -, f0⟩ := form (drawsOf t0) _ rfl _ rfl _ rfl
    obtain ⟨c0, -, -, e0⟩ := f0 (H t0)
    have hdm : dummyP v n N ys.length ms.length (drawsOf t0) = witOf (fun _ : ReqMask ms.length K => 0) := by
      subst hK
      rw [ht0]
      exact Md.dummyP_remask _ z0
    have hee : t0.2.2.1 = e := by rw [ht0]
    rw [if_pos] at e0
    swap
    · constructor
      · intro r hr
        rw [secretP_enc hK (by rw [hee]; exact he), hee] at hr
        obtain ⟨j, rfl⟩ := List.mem_ofFn.1 hr
        exact hok j
      · rw [hdm]
        intro r hr
        obtain ⟨j, rfl⟩ := List.mem_ofFn.1 hr
        exact .inr rfl
    have hre : ∀ a, remask (drawsOf t0) a = drawsOf (a, b, e, o) := by rw [ht0]; exact fun a => rfl
    subst hK
    have key := C100_request S pk bsk ms rs cm om cr orr R hom horr _ (drawsOf t0) _ _ _ e0 c
      (fun a => H (a, b, e, o)) (fun a ha req' π st' hgen => by
        rw [hre] at hgen
        exact hc (a, b, e, o) (by
          simp only [allDraws, Finset.mem_product]; exact ⟨ha, hb, he, ho⟩) req' π st' hgen)
    have key2 := key.close (by positivity)
    refine (key2.map sent (fun a _ => by rw [hre]) (fun a _ => ?_)).mono (le_of_eq ?_)
    · simp only [if_pos hok]
      rw [ht0]
      rfl
    · push_cast
      have hNq : (N : ℚ) ≠ 0 := by positivity
      have h2q : (2 : ℚ) ^ v.params.sec.toNat ≠ 0 := by positivity
      field_simp
  · refine ((Close.refl _ _).congr (f := fun _ => .err .invalidArgument) (fun a _ => ?_)
      (fun a _ => ?_)).mono (by positivity)
    · obtain ⟨-, -, -, f⟩ := form (drawsOf (a, b, e, o)) _ rfl _ rfl _ rfl
      obtain ⟨c0, -, -, e0⟩ := f (H (a, b, e, o))
      rw [if_neg] at e0
      · rw [e0]; rfl
      · rintro ⟨h1, -⟩
        apply hok
        intro j
        apply h1
        rw [secretP_enc hK he]
        exact List.mem_ofFn.2 ⟨j, rfl⟩
    · simp only [if_neg hok]

/-- The second step: draws of the encryption randomness that are refused are few. -/
theorem view_refused {β : Type} (hN0 : 0 < N) (L K : Nat)
    (f : AllDraws L K → Res β) :
    Close (allDraws v n N L K)
      (fun t => if ∀ j, RandOk N (t.2.2.1 j) then f t else .err .invalidArgument) f
      (K * (N - N.totient : Nat) / N) := by
  refine Close.snd fun a ha => Close.snd fun b hb => Close.fst fun o ho => ?_
  have := close_of_bad (ι := Fin K) hN0 (fun x : Nat => ¬ RandOk N (x : Int)) (N - N.totient) N hN0
    (by
      refine Nat.mul_le_mul_right _ ?_
      have := card_not_coprime N 1
      rw [mul_one, one_mul] at this
      rw [← this]
      apply Finset.card_le_card
      intro x hx
      rw [Finset.mem_filter] at hx ⊢
      refine ⟨hx.1, fun hcop => hx.2 (.inl ?_)⟩
      rw [Int.gcd_natCast_natCast, Nat.gcd_comm]
      exact hcop)
    (fun e => if ∀ j, RandOk N (e j) then f (a, b, e, o) else .err .invalidArgument)
    (fun e => f (a, b, e, o))
    (fun e _ hbad => if_pos fun j => not_not.1 (hbad j))
  rw [Fintype.card_fin] at this
  exact this

/-- The request of a draw, with simulated commitments and proof. -/
def comSim (v : BbSig G) (gs : List Int) (h n : Int) (N s : Nat) (g : Int) (ys ms rs : List Int)
    (om orr : Int) (ks yks : List CsCt) (c : Nat) {L K : Nat} (t : AllDraws L K) :
    BbRequest × BbReqProof :=
  (reqP (prepP v gs h n N s g ys ks yks (secretP v n N ys.length ms rs om orr (drawsOf t))),
    simRequest (List.ofFn fun i : Fin L => simCom h n (t.2.2.2 (.inl i)))
      (simCom h n (t.2.2.2 (.inr 0))) (simCom h n (t.2.2.2 (.inr 1))) (simCom h n (t.2.2.2 (.inr 2)))
      c t.1)

/-- The third step: the commitments are replaced by random powers of `h`. -/
theorem view_commit (hn : 0 < n) (hgs : ∀ c ∈ gs, ∃ k : Nat, c ≡ h ^ k [ZMOD n]) {Mh : Nat}
    (hMh0 : 0 < Mh) (hMh : h ^ Mh ≡ 1 [ZMOD n]) (ms rs : List Int) (om orr : Int)
    (ks yks : List CsCt) (c K : Nat) :
    Close (allDraws v n N ms.length K)
      (proofSim v gs h n N s g ys ms rs om orr ks yks c)
      (comSim v gs h n N s g ys ms rs om orr ks yks c)
      (((ms.length + 3 : Nat) : ℚ) * (n.toNat % Mh : Nat) / n.toNat) := by
  have hn' : 0 < n.toNat := by omega
  have hnn : ((n.toNat : Nat) : Int) = n := Int.toNat_of_nonneg hn.le
  refine Close.snd fun a ha => Close.snd fun b hb => Close.snd fun e he => ?_
  set as := (List.range ms.length).map (fun i => aOf v (drawFn (fun i => b (.inl i)) i)) with has
  set bs := drawP ms.length ((v.group.order : Int) * v.group.order * 2 ^ tBits v)
    (drawFn fun i : Fin ms.length => b (.inr i)) with hbs
  choose XA hXA using fun i : Nat => commitment_pow hgs (slot gs.length i (as.getD i 0))
  obtain ⟨XB, hXB⟩ := commitment_pow hgs bs
  set cas : (Fin ms.length → Nat) → List Int := fun o =>
    (List.range ms.length).map fun i => h ^ (drawFn o i + XA i) % n with hcas
  have hpow : ∀ o, ∀ x ∈ cas o, ∃ k : Nat, x ≡ h ^ k [ZMOD n] := by
    intro o x hx
    obtain ⟨i, _, rfl⟩ := List.mem_map.1 hx
    exact ⟨_, Int.mod_modEq _ _⟩
  choose Xα hXα using fun o => accP_pow (gs := gs) ms (hpow o)
  choose Xγ hXγ using fun o => accP_pow (gs := gs) rs (hpow o)
  set X : (Fin ms.length ⊕ Fin 3 → Nat) → Fin ms.length ⊕ Fin 3 → Nat := fun o => fun
    | .inl i => XA i
    | .inr 0 => XB
    | .inr 1 => Xα fun i => o (.inl i)
    | .inr 2 => Xγ fun i => o (.inl i) with hX
  have key := close_shift_mod (ι := Fin ms.length ⊕ Fin 3) (M := Mh) hMh0 hn' X
    (by
      intro x _ y _ hxy
      have h1 : (fun i => x (.inl i)) = fun i => y (.inl i) := by
        funext i
        exact rot_inj hMh0 (hxy (.inl i))
      funext i
      rcases i with i | i
      · rfl
      · fin_cases i
        · rfl
        · exact congrArg Xα h1
        · exact congrArg Xγ h1)
    (fun o => comSim v gs h n N s g ys ms rs om orr ks yks c ((a, b, e, o) : AllDraws ms.length K))
    (by
      intro x y hxy
      have hs : ∀ i, simCom h n (x i) = simCom h n (y i) := fun i => by
        unfold simCom
        rw [pow_mod_of_residue hMh (hxy i)]
      have hr : reqP (prepP v gs h n N s g ys ks yks (secretP v n N ys.length ms rs om orr
            (drawsOf ((a, b, e, x) : AllDraws ms.length K)))) =
          reqP (prepP v gs h n N s g ys ks yks (secretP v n N ys.length ms rs om orr
            (drawsOf ((a, b, e, y) : AllDraws ms.length K)))) := rfl
      unfold comSim
      simp only [hs, hr])
  have hcard : Fintype.card (Fin ms.length ⊕ Fin 3) = ms.length + 3 := by simp
  rw [hcard] at key
  refine key.congr (fun o ho => ?_) (fun o _ => rfl)
  have ho' : ∀ i, ((o i : Nat) : Int) % n = o i := fun i =>
    Int.emod_eq_of_lt (by omega) (by have := mem_box.1 ho i; omega)
  -- the openings
  have hos : (List.range ms.length).map (fun i => ((drawFn (fun i => o (.inl i)) i : Nat) : Int) % n) =
      intVec fun i : Fin ms.length => o (.inl i) :=
    drawP_drawFn fun i => by have := mem_box.1 ho (.inl i); omega
  have e1 : comAsP gs h n as (intVec fun i : Fin ms.length => o (.inl i)) ms.length = cas fun i => o (.inl i) := by
    unfold comAsP
    rw [hcas]
    apply List.map_congr_left
    intro i hi
    have hi := List.mem_range.1 hi
    have : (intVec fun i : Fin ms.length => o (.inl i)).getD i 0 =
        ((drawFn (fun i : Fin ms.length => o (.inl i)) i : Nat) : Int) := by
      rw [List.getD_eq_getElem _ _ (by rw [intVec_length]; exact hi)]
      simp only [intVec, List.getElem_ofFn, drawFn, hi, dif_pos]
    unfold comAtP
    rw [this, hXA]
  have ecas : cas (fun i => o (.inl i)) = List.ofFn fun i : Fin ms.length => h ^ (o (.inl i) + XA i) % n := by
    rw [hcas]
    apply List.ext_getElem
    · simp
    · intro i h1 h2
      have hi : i < ms.length := by simpa using h1
      simp only [List.getElem_map, List.getElem_range, List.getElem_ofFn, drawFn, hi, dif_pos]
  have eB := hXB (o (.inr 0))
  have eα := hXα (fun i => o (.inl i)) (o (.inr 1))
  have eγ := hXγ (fun i => o (.inl i)) (o (.inr 2))
  unfold proofSim comSim
  dsimp only
  refine Prod.ext rfl ?_
  dsimp only
  have f1 : (prepP v gs h n N s g ys ks yks (secretP v n N ys.length ms rs om orr
      (drawsOf ((a, b, e, o) : AllDraws ms.length K)))).commitAs = cas fun i => o (.inl i) := by
    rw [← e1, ← hos]; rfl
  have f2 : (prepP v gs h n N s g ys ks yks (secretP v n N ys.length ms rs om orr
      (drawsOf ((a, b, e, o) : AllDraws ms.length K)))).commitBs = h ^ (o (.inr 0) + XB) % n := by
    rw [← eB, ← ho']; rfl
  have f3 : (prepP v gs h n N s g ys ks yks (secretP v n N ys.length ms rs om orr
      (drawsOf ((a, b, e, o) : AllDraws ms.length K)))).commitAlphas =
      h ^ (o (.inr 1) + Xα fun i => o (.inl i)) % n := by
    rw [← eα, ← ho' (.inr 1), ← e1, ← hos]; rfl
  have f4 : (prepP v gs h n N s g ys ks yks (secretP v n N ys.length ms rs om orr
      (drawsOf ((a, b, e, o) : AllDraws ms.length K)))).commitGammas =
      h ^ (o (.inr 2) + Xγ fun i => o (.inl i)) % n := by
    rw [← eγ, ← ho' (.inr 2), ← e1, ← hos]; rfl
  rw [f1, f2, f3, f4, ecas]
  simp only [vecB, List.map_ofFn]
  rfl

theorem simCt_eq (N s : Nat) (g : Int) (ys zs : List Int) (i r : Nat) :
    simCt N s g ys zs i r = ctB (encP ((N : Int) ^ (s + 1)) N g ys
      ((zs.drop (i * ys.length)).take (batchSize ys.length zs.length i)) r) := by
  unfold simCt ctB encP vecB
  simp only [Int.toNat_natCast, List.map_map]
  congr 1
  apply List.map_congr_left
  intro j hj
  have hj := List.mem_range.1 hj
  simp only [Function.comp]
  have : ((zs.drop (i * ys.length)).take (batchSize ys.length zs.length i)).getD j 0 =
      zs.getD (i * ys.length + j) 0 := by
    by_cases h : j < batchSize ys.length zs.length i
    · exact getD_drop_take h
    · rw [List.getD_eq_default _ _ (by simp; omega),
        List.getD_eq_default _ _ (by unfold batchSize at h; omega)]
  rw [this]
  rfl

/-- The values that the ciphertexts of a request contain, for given blinding factors. -/
def betas (q : Nat) {L : Nat} (M : Fin L → Nat) (b : BlindMask L → Nat) : List Int :=
  List.ofFn fun i : Fin L => ((1 + b (.inl i) : Nat) : Int) * M i + b (.inr i) * q

/-- A request with encryptions of given values, simulated commitments and proof. -/
def ctSim (h n : Int) (N s : Nat) (g : Int) (ys : List Int) (c : Nat) {L K : Nat} (zs : List Int)
    (t : AllDraws L K) : BbRequest × BbReqProof :=
  (⟨L, List.ofFn fun i : Fin K => simCt N s g ys zs i (t.2.2.1 i)⟩,
    simRequest (List.ofFn fun i : Fin L => simCom h n (t.2.2.2 (.inl i)))
      (simCom h n (t.2.2.2 (.inr 0))) (simCom h n (t.2.2.2 (.inr 1))) (simCom h n (t.2.2.2 (.inr 2)))
      c t.1)

/-- The fourth step: the ciphertexts are replaced by fresh encryptions of the same values. -/
theorem view_ct (Md : Bb.Made gs h n N s g ys v) (KR : Cs.KeyRel N s g ys xs) {Mg : Nat}
    (hMg0 : 0 < Mg) (hMg : g ^ Mg ≡ 1 [ZMOD (N : Int) ^ (s + 1)]) (ms rs : List Int) (om orr : Int)
    (hl : rs.length = ms.length) (hm0 : ∀ m ∈ ms, 0 ≤ m) (hr0 : ∀ r ∈ rs, 0 ≤ r) (ho : 0 ≤ om)
    (ho' : 0 ≤ orr) {k y : Int} (hk : 0 ≤ k) (hy : 0 ≤ y) {dK dY : Nat → Int}
    (hdk : DrawsOk N ys.length dK) (hdy : DrawsOk N ys.length dY) (c K : Nat)
    (hK : numCts ms.length ys.length = K) (M : Fin ms.length → Nat)
    (hM : ∀ i : Fin ms.length, ms.getD i 0 + k + y * rs.getD i 0 = M i) :
    Close (allDraws v n N ms.length K)
      (comSim v gs h n N s g ys ms rs om orr (keyCts ((N : Int) ^ (s + 1)) N g ys k dK)
        (keyCts ((N : Int) ^ (s + 1)) N g ys y dY) c)
      (fun t => ctSim h n N s g ys c (betas v.group.order M t.2.1) t)
      ((K : ℚ) * (N % Mg : Nat) / N) := by
  have hq := Md.order
  have hN0 : 0 < N := by have := Md.N1; omega
  refine Close.snd fun a ha => Close.snd fun b hb => Close.fst fun o _ => ?_
  have hb' := mem_box.1 hb
  have hysO : ∀ z ∈ ys, z ^ Mg ≡ 1 [ZMOD (N : Int) ^ (s + 1)] := by
    intro z hz
    obtain ⟨i, hi, rfl⟩ := List.mem_iff_getElem.1 hz
    have e := KR.rel i (by rw [← KR.len]; exact hi)
    rw [List.getD_eq_getElem _ _ hi] at e
    refine (e.pow Mg).trans ?_
    rw [← pow_mul, mul_comm, pow_mul]
    have := hMg.pow (xs.getD i 0).toNat
    rwa [one_pow] at this
  -- the secrets that the ciphertexts depend on
  obtain ⟨w0, hw0⟩ : ∃ w0, w0 = secretP v n N ys.length ms rs om orr
    (drawsOf ((a, b, fun _ => 0, o) : AllDraws ms.length K)) := ⟨_, rfl⟩
  have W0 : WitOk ms.length K w0 := by
    have := Md.secretP_ok (om := om) (orr := orr)
      (drawsOf ((a, b, fun _ => 0, o) : AllDraws ms.length K)) hl hm0 hr0 ho ho' ys.length
    rwa [hK, ← hw0] at this
  obtain ⟨l1, n1⟩ := maskedMessages_ok (q := (v.group.order : Int)) (by omega) W0
  have hβ : ∀ j, j < (maskedMessages v.group.order w0).length →
      (betas v.group.order M b).getD j 0 = (maskedMessages v.group.order w0).getD j 0 +
        (k * w0.as.getD j 0 + y * w0.gammas.getD j 0) := by
    intro j hj
    rw [l1] at hj
    have e1 : aOf v (drawFn (fun i : Fin ms.length => b (.inl i)) j) =
        ((1 + b (.inl ⟨j, hj⟩) : Nat) : Int) := by
      simp only [drawFn, hj, dif_pos]
      unfold aOf
      have l1 : b (.inl ⟨j, hj⟩) < v.group.order - 1 := hb' (.inl ⟨j, hj⟩)
      rw [Int.emod_eq_of_lt (by omega) (by omega)]
      push_cast
      ring
    have e3 : (drawP ms.length ((v.group.order : Int) * v.group.order * 2 ^ tBits v)
        (drawFn fun i : Fin ms.length => b (.inr i))).getD j 0 = (b (.inr ⟨j, hj⟩) : Int) := by
      unfold drawP
      rw [getD_map_range _ _ hj]
      simp only [drawFn, hj, dif_pos]
      have l1 : b (.inr ⟨j, hj⟩) < v.group.order * v.group.order *
        2 ^ (v.params.chal + v.params.sec).toNat := hb' (.inr ⟨j, hj⟩)
      refine Int.emod_eq_of_lt (by omega) ?_
      have : ((b (.inr ⟨j, hj⟩) : Nat) : Int) < ((v.group.order * v.group.order *
        2 ^ (v.params.chal + v.params.sec).toNat : Nat) : Int) := by exact_mod_cast l1
      push_cast at this
      exact this
    have hb1 : (betas v.group.order M b).getD j 0 =
        ((1 + b (.inl ⟨j, hj⟩) : Nat) : Int) * M ⟨j, hj⟩ + b (.inr ⟨j, hj⟩) * v.group.order := by
      unfold betas
      rw [List.getD_eq_getElem _ _ (by simpa using hj), List.getElem_ofFn]
    rw [hb1, ← hM ⟨j, hj⟩, hw0]
    unfold maskedMessages secretP drawsOf remask
    dsimp only
    rw [zipWith_getD (by simp [hj]) (by rw [drawP_length]; exact hj), zipWith_getD hj (by simp [hj]),
      zipWith_getD (by omega) (by simp [hj]), getD_map_range _ _ hj, e1, e3]
    ring
  have lz : (betas v.group.order M b).length = (maskedMessages v.group.order w0).length := by
    rw [l1]; simp [betas]
  have lz' : (betas v.group.order M b).length = ms.length := by simp [betas]
  set RX : Nat → Int := fun i => extraRand w0.as w0.gammas dK dY (i * ys.length)
    (batchSize ys.length (maskedMessages v.group.order w0).length i) with hRX
  have key := close_shift_mod (ι := Fin K) (M := Mg) hMg0 hN0 (fun _ i => (RX i).toNat)
    (fun _ _ _ _ _ => rfl)
    (fun e => ctSim h n N s g ys c (betas v.group.order M b) ((a, b, e, o) : AllDraws ms.length K))
    (by
      intro x z hxz
      have hs : ∀ i : Fin K, simCt N s g ys (betas v.group.order M b) i (x i) =
          simCt N s g ys (betas v.group.order M b) i (z i) := by
        intro i
        rw [simCt_eq, simCt_eq, encP_residue hMg hysO (hxz i)]
      unfold ctSim
      simp only [hs])
  rw [Fintype.card_fin] at key
  refine key.congr (fun e he => ?_) (fun e _ => rfl)
  unfold comSim ctSim
  dsimp only
  refine Prod.ext ?_ rfl
  dsimp only
  have hwe : ∀ i : Fin K, homCtP ((N : Int) ^ (s + 1)) N g ys (maskedMessages v.group.order w0) w0.as
      w0.gammas (intVec e) (keyCts ((N : Int) ^ (s + 1)) N g ys k dK)
      (keyCts ((N : Int) ^ (s + 1)) N g ys y dY) i =
      encP ((N : Int) ^ (s + 1)) N g ys (((betas v.group.order M b).drop (i * ys.length)).take
        (batchSize ys.length (betas v.group.order M b).length i)) ((e i + (RX i).toNat : Nat)) := by
    intro i
    obtain ⟨r0, h1⟩ := homCtP_encP (M := (N : Int) ^ (s + 1)) (N := N) (g := g) hk hy hdk hdy W0.as.2
      W0.gammas.2 n1 (intVec_nonneg e) lz hβ i
    rw [h1, lz]
    congr 1
    push_cast
    rw [Int.toNat_of_nonneg r0, List.getD_eq_getElem _ _ (by rw [intVec_length]; exact i.2)]
    simp [intVec]
  have hreq : reqP (prepP v gs h n N s g ys (keyCts ((N : Int) ^ (s + 1)) N g ys k dK)
      (keyCts ((N : Int) ^ (s + 1)) N g ys y dY) (secretP v n N ys.length ms rs om orr
        (drawsOf ((a, b, e, o) : AllDraws ms.length K)))) =
      ⟨ms.length, ((List.range (numCts ms.length ys.length)).map
        (homCtP ((N : Int) ^ (s + 1)) N g ys (maskedMessages v.group.order w0) w0.as
          w0.gammas (drawP (numCts ms.length ys.length) N (drawFn e))
          (keyCts ((N : Int) ^ (s + 1)) N g ys k dK)
          (keyCts ((N : Int) ^ (s + 1)) N g ys y dY))).map ctB⟩ := by
    rw [hw0]; rfl
  rw [hreq]
  congr 1
  rw [hK, drawP_drawFn (fun i => by exact_mod_cast mem_box.1 he i)]
  apply List.ext_getElem
  · simp
  · intro i h1 h2
    have hi : i < K := by simpa using h1
    simp only [List.getElem_map, List.getElem_range, List.getElem_ofFn]
    rw [simCt_eq, ← hwe ⟨i, hi⟩]

/-- The last step: the encrypted values are replaced by values without messages and nonces. -/
theorem view_values (hprime : v.group.order.Prime) {L : Nat} (K c : Nat) (M : Fin L → Nat)
    (hMlt : ∀ i, M i < v.group.order * v.group.order) (hMnd : ∀ i, ¬ v.group.order ∣ M i) :
    Close (allDraws v n N L K)
      (fun t => ctSim h n N s g ys c (betas v.group.order M t.2.1) t)
      (simView v h n N s g ys L K c)
      ((L : ℚ) / 2 ^ (v.params.chal + v.params.sec).toNat) := by
  refine Close.snd fun a _ => Close.fst fun u _ => ?_
  exact (blind_close v hprime M hMlt hMnd).map
    (fun zs => ctSim h n N s g ys c zs ((a, fun _ => 0, u) : AllDraws L K)) (fun b _ => rfl)
    (fun b _ => rfl)

/-- **C127**, for given commitments.  With all draws uniform over their ranges, and for each the hash
function any that leads to the challenge `c`, what `GenerateRequestAndProof` sends is distributed
like a simulated request and proof that contain neither messages nor nonces, up to a statistical
distance of `viewError`.  The hypotheses `hgs`, `hMh` and `hMg` are about public parameters: the bases
of the commitments are powers of `h`, and `Mh`, `Mg` are multiples of the orders of `h` and `g`. -/
theorem C127_request (S : BbSetup gs h n N s g ys xs v sk) (pk : BbPublicKey) (bsk : BbPrivateKey)
    (ms rs : List Int) (cm om cr orr : Int) (R : BbRun gs N ys v pk bsk ms rs cm om cr orr)
    (hom : om < n) (horr : orr < n) (hgs : ∀ c ∈ gs, ∃ k : Nat, c ≡ h ^ k [ZMOD n])
    (Mh Mg : Nat) (hMh0 : 0 < Mh) (hMh : h ^ Mh ≡ 1 [ZMOD n]) (hMg0 : 0 < Mg)
    (hMg : g ^ Mg ≡ 1 [ZMOD (N : Int) ^ (s + 1)])
    (hm : ∀ i < ms.length, ¬ ms.getD i 0 + BN.ofBytes bsk.k + BN.ofBytes bsk.y * rs.getD i 0 ≡ 0
      [ZMOD v.group.order])
    (L : Nat) (hL : ms.length = L) (c : Nat) (H : AllDraws L (numCts L ys.length) → Hashes)
    (hc : ∀ t ∈ allDraws v n N L (numCts L ys.length), ∀ req π st,
      generateRequest (H t) v ms rs pk cm om cr orr (drawsOf t) = .ok (req, π, st) →
      BN.ofBytes π.challenge = c) :
    Close (allDraws v n N L (numCts L ys.length))
      (fun t => sent (generateRequest (H t) v ms rs pk cm om cr orr (drawsOf t)))
      (fun t => .ok (simView v h n N s g ys L (numCts L ys.length) c t))
      (viewError v n N L (numCts L ys.length) Mh Mg) := by
  subst hL
  have Md := S.made
  have hq := Md.order
  have hn := Md.n0
  have hN0 : 0 < N := by have := Md.N1; omega
  have hqN : 2 ≤ v.group.order := by omega
  -- the keys
  obtain ⟨k, y, dK, dY, hk0, hkq, hy0, hyq, hdk, hdy, hpk, hkb, hyb⟩ :
      ∃ (k y : Nat) (dK dY : Nat → Int), 1 ≤ k ∧ k < v.group.order ∧ 1 ≤ y ∧ y < v.group.order ∧
        DrawsOk N ys.length dK ∧ DrawsOk N ys.length dY ∧
        parseKeys v.cs pk = .ok (keyCts ((N : Int) ^ (s + 1)) N g ys k dK,
          keyCts ((N : Int) ^ (s + 1)) N g ys y dY) ∧
        BN.ofBytes bsk.k = k ∧ BN.ofBytes bsk.y = y := by
    obtain ⟨wk, wy, dK, dY, hdk, hdy, hkeys⟩ := R.keys
    obtain ⟨k, y, hk1, hk2, hy1, hy2, hg⟩ := Md.generateKeys_ok wk wy hdk hdy
    rw [hg] at hkeys
    simp only [Res.ok.injEq, Prod.mk.injEq] at hkeys
    obtain ⟨rfl, rfl⟩ := hkeys
    obtain ⟨k, rfl⟩ := Int.eq_ofNat_of_zero_le (show 0 ≤ k by omega)
    obtain ⟨y, rfl⟩ := Int.eq_ofNat_of_zero_le (show 0 ≤ y by omega)
    have K' := (Md.keyOk (keyCts_wf Md.units k dK) (keyCts_wf Md.units y dY) (keyCts_length ..)
      (keyCts_length ..)).parse
    exact ⟨k, y, dK, dY, by omega, by omega, by omega, by omega, hdk, hdy, K',
      ofBytes_encB (by omega), ofBytes_encB (by omega)⟩
  -- what is signed
  have inRange : ∀ {l : List Int}, (∀ m ∈ l, 0 ≤ m ∧ m < (v.group.order : Int)) → ∀ i : Nat,
      i < l.length → ∃ m : Nat, l.getD i 0 = m ∧ m < v.group.order := by
    intro l hl i hi
    have := hl _ (getD_mem 0 hi)
    exact ⟨(l.getD i 0).toNat, by omega, by omega⟩
  have hMex : ∀ i : Fin ms.length, ∃ m : Nat, ms.getD i 0 + (k : Int) + (y : Int) * rs.getD i 0 = m ∧
      m < v.group.order * v.group.order ∧ ¬ v.group.order ∣ m := by
    intro i
    obtain ⟨m, e1, h1⟩ := inRange R.messages i i.2
    obtain ⟨r, e2, h2⟩ := inRange R.nonces i (by rw [R.sizes.1]; exact i.2)
    have hne := hm i i.2
    refine ⟨m + k + y * r, by rw [e1, e2]; push_cast; ring, ?_, ?_⟩
    · obtain ⟨p, hp⟩ := Nat.exists_eq_add_of_lt (show 0 < v.group.order by omega)
      have hqp : v.group.order = p + 1 := by omega
      have h3 : y * r ≤ p * p := Nat.mul_le_mul (by omega) (by omega)
      have h4 : v.group.order * v.group.order = p * p + 2 * p + 1 := by rw [hqp]; ring
      omega
    · intro hdv
      apply hne
      rw [e1, e2, hkb, hyb]
      apply Int.modEq_zero_iff_dvd.2
      have : ((v.group.order : Nat) : Int) ∣ ((m + k + y * r : Nat) : Int) := by exact_mod_cast hdv
      push_cast at this
      exact this
  choose M hM hMlt hMnd using hMex
  have hm0 : ∀ m ∈ ms, 0 ≤ m := fun m hm => (R.messages m hm).1
  have hr0 : ∀ r ∈ rs, 0 ≤ r := fun r hr => (R.nonces r hr).1
  have s1 := view_proof S pk bsk ms rs cm om cr orr R hom horr _ rfl _ _ hpk c H hc
  have s2 := view_refused (v := v) (n := n) hN0 ms.length (numCts ms.length ys.length) (fun t => .ok
    (proofSim v gs h n N s g ys ms rs om orr (keyCts ((N : Int) ^ (s + 1)) N g ys k dK)
      (keyCts ((N : Int) ^ (s + 1)) N g ys y dY) c t))
  have s3 := view_commit (v := v) (N := N) (s := s) (g := g) (ys := ys) hn hgs hMh0 hMh ms rs om orr
    (keyCts ((N : Int) ^ (s + 1)) N g ys k dK) (keyCts ((N : Int) ^ (s + 1)) N g ys y dY) c
    (numCts ms.length ys.length)
  have s4 := view_ct Md S.keyPair.keyRel hMg0 hMg ms rs om orr R.sizes.1 hm0 hr0 R.openings.1
    R.openings.2 (Int.natCast_nonneg k) (Int.natCast_nonneg y) hdk hdy c _ rfl M hM
  have s5 := view_values (h := h) (n := n) (N := N) (s := s) (g := g) (ys := ys) Md.lawful.prime
    (numCts ms.length ys.length) c M hMlt hMnd
  have s345 := ((s3.trans s4).trans s5).map (fun x => (Res.ok x : Res (BbRequest × BbReqProof)))
    (fun _ _ => rfl) (fun _ _ => rfl)
  refine ((s1.trans s2).trans s345).mono (le_of_eq ?_)
  unfold viewError
  push_cast
  ring

/-- What a requester starts from: a public key that `GenerateKeys` returned, messages and nonces in
range, none of which would make the signature undefined. -/
structure BbInput (gs : List Int) (N : Nat) (ys : List Int) (v : BbSig G) (pk : BbPublicKey)
    (bsk : BbPrivateKey) (ms rs : List Int) : Prop where
  keys : ∃ wk wy drawK drawY, (∀ i < ys.length, 0 ≤ drawK i ∧ Int.gcd (drawK i) N = 1) ∧
    (∀ i < ys.length, 0 ≤ drawY i ∧ Int.gcd (drawY i) N = 1) ∧
    generateKeys v wk wy drawK drawY = .ok (pk, bsk)
  sizes : rs.length = ms.length ∧ ms.length ≤ gs.length
  messages : ∀ m ∈ ms, 0 ≤ m ∧ m < v.group.order
  nonces : ∀ r ∈ rs, 0 ≤ r ∧ r < v.group.order
  defined : ∀ i < ms.length, ¬ ms.getD i 0 + BN.ofBytes bsk.k + BN.ofBytes bsk.y * rs.getD i 0 ≡ 0
    [ZMOD v.group.order]

/-- Everything a requester sends: commitments to the messages and to the nonces (`Commit`, with the
draws `t.1 0` and `t.1 1` of their openings), the request and its proof
(`GenerateRequestAndProof`). -/
def requesterSends (H : Hashes) (v : BbSig G) (ms rs : List Int) (pk : BbPublicKey) {L K : Nat}
    (t : (Fin 2 → Nat) × AllDraws L K) : Res (Int × Int × BbRequest × BbReqProof) := do
  let (cm, om) ← Ped.commit v.ped ms (t.1 0)
  let (cr, orr) ← Ped.commit v.ped rs (t.1 1)
  let (req, π, _) ← generateRequest H v ms rs pk cm om cr orr (drawsOf t.2)
  return (cm, cr, req, π)

/-- All draws of a requester: openings of the two commitments, and those of the request. -/
def requesterDraws (v : BbSig G) (n : Int) (N L K : Nat) : Finset ((Fin 2 → Nat) × AllDraws L K) :=
  Box (fun _ : Fin 2 => n.toNat) ×ˢ allDraws v n N L K

/-- **C127**.  With all draws of the requester uniform over their ranges, and for each the hash
function any that leads to the challenge `c`, everything the requester sends is distributed like
random powers of `h` and a simulated request and proof, which depend on nothing secret, up to
`viewError` and `2 (n mod Mh) / n` for the two commitments. -/
theorem C127_view (S : BbSetup gs h n N s g ys xs v sk) (pk : BbPublicKey) (bsk : BbPrivateKey)
    (ms rs : List Int) (I : BbInput gs N ys v pk bsk ms rs)
    (hgs : ∀ c ∈ gs, ∃ k : Nat, c ≡ h ^ k [ZMOD n])
    (Mh Mg : Nat) (hMh0 : 0 < Mh) (hMh : h ^ Mh ≡ 1 [ZMOD n]) (hMg0 : 0 < Mg)
    (hMg : g ^ Mg ≡ 1 [ZMOD (N : Int) ^ (s + 1)])
    (L : Nat) (hL : ms.length = L) (c : Nat)
    (H : (Fin 2 → Nat) × AllDraws L (numCts L ys.length) → Hashes)
    (hc : ∀ t ∈ requesterDraws v n N L (numCts L ys.length), ∀ cm cr req π,
      requesterSends (H t) v ms rs pk t = .ok (cm, cr, req, π) → BN.ofBytes π.challenge = c) :
    Close (requesterDraws v n N L (numCts L ys.length))
      (fun t => requesterSends (H t) v ms rs pk t)
      (fun t => .ok (h ^ t.1 0 % n, h ^ t.1 1 % n, simView v h n N s g ys L (numCts L ys.length) c t.2))
      (viewError v n N L (numCts L ys.length) Mh Mg + 2 * (n.toNat % Mh : Nat) / n.toNat) := by
  have Md := S.made
  have Gd := Md.good
  have hn := Md.n0
  have hn' : 0 < n.toNat := by omega
  have hnn : ((n.toNat : Nat) : Int) = n := Int.toNat_of_nonneg hn.le
  have vm : ∀ r : Nat, Ped.Valid gs ms r := fun r =>
    ⟨I.sizes.2, fun m hm => (I.messages m hm).1, by omega⟩
  have vr : ∀ r : Nat, Ped.Valid gs rs r := fun r =>
    ⟨by rw [I.sizes.1]; exact I.sizes.2, fun m hm => (I.nonces m hm).1, by omega⟩
  have com : ∀ (l : List Int) (r : Nat), Ped.Valid gs l r → r < n.toNat →
      Ped.commit v.ped l r = .ok (Ped.commitment gs h n l r, (r : Int)) := by
    intro l r hv hr
    unfold Ped.commit
    rw [Gd.n_eq, randLessThan_eq _ hn, Res.ok_bind, Int.emod_eq_of_lt (by omega) (by omega),
      Gd.commit hv]
    rfl
  -- for given commitments
  have step1 : Close (requesterDraws v n N L (numCts L ys.length))
      (fun t => requesterSends (H t) v ms rs pk t)
      (fun t => .ok (Ped.commitment gs h n ms (t.1 0 : Nat), Ped.commitment gs h n rs (t.1 1 : Nat),
        simView v h n N s g ys L (numCts L ys.length) c t.2))
      (viewError v n N L (numCts L ys.length) Mh Mg) := by
    refine Close.snd fun o ho => ?_
    have h0 := mem_box.1 ho 0
    have h1 := mem_box.1 ho 1
    have R : BbRun gs N ys v pk bsk ms rs (Ped.commitment gs h n ms (o 0 : Nat)) (o 0 : Nat)
        (Ped.commitment gs h n rs (o 1 : Nat)) (o 1 : Nat) :=
      ⟨I.keys, I.sizes, I.messages, I.nonces, ⟨by omega, by omega⟩, Gd.commit (vm _),
        Gd.commit (vr _)⟩
    have e : ∀ t : AllDraws L (numCts L ys.length), requesterSends (H (o, t)) v ms rs pk (o, t) =
        (sent (generateRequest (H (o, t)) v ms rs pk (Ped.commitment gs h n ms (o 0 : Nat))
          (o 0 : Nat) (Ped.commitment gs h n rs (o 1 : Nat)) (o 1 : Nat) (drawsOf t))).bind
        fun x => .ok (Ped.commitment gs h n ms (o 0 : Nat), Ped.commitment gs h n rs (o 1 : Nat), x) := by
      intro t
      unfold requesterSends sent
      simp only [com ms _ (vm _) h0, com rs _ (vr _) h1, Res.ok_bind]
      cases generateRequest (H (o, t)) v ms rs pk (Ped.commitment gs h n ms (o 0 : Nat))
          (o 0 : Nat) (Ped.commitment gs h n rs (o 1 : Nat)) (o 1 : Nat) (drawsOf t) <;> rfl
    have key := C127_request S pk bsk ms rs _ _ _ _ R (by omega) (by omega) hgs Mh Mg hMh0 hMh hMg0
      hMg I.defined L hL c (fun t => H (o, t)) (fun t ht req π st hgen => by
        refine hc (o, t) (Finset.mem_product.2 ⟨ho, ht⟩) (Ped.commitment gs h n ms (o 0 : Nat))
          (Ped.commitment gs h n rs (o 1 : Nat)) req π ?_
        rw [e, hgen]
        rfl)
    exact key.map (fun r => r.bind fun x =>
      .ok (Ped.commitment gs h n ms (o 0 : Nat), Ped.commitment gs h n rs (o 1 : Nat), x))
      (fun t _ => e t) (fun t _ => rfl)
  -- the commitments
  obtain ⟨Xm, hXm⟩ := commitment_pow hgs ms
  obtain ⟨Xr, hXr⟩ := commitment_pow hgs rs
  have step2 : Close (requesterDraws v n N L (numCts L ys.length))
      (fun t => (.ok (Ped.commitment gs h n ms (t.1 0 : Nat), Ped.commitment gs h n rs (t.1 1 : Nat),
        simView v h n N s g ys L (numCts L ys.length) c t.2) : Res (Int × Int × BbRequest × BbReqProof)))
      (fun t => .ok (h ^ t.1 0 % n, h ^ t.1 1 % n, simView v h n N s g ys L (numCts L ys.length) c t.2))
      (2 * (n.toNat % Mh : Nat) / n.toNat) := by
    refine Close.fst fun t _ => ?_
    have key := close_shift_mod (ι := Fin 2) hMh0 hn' (fun _ i => if i = 0 then Xm else Xr)
      (fun _ _ _ _ _ => rfl)
      (fun o : Fin 2 → Nat => (.ok (h ^ o 0 % n, h ^ o 1 % n,
        simView v h n N s g ys L (numCts L ys.length) c t) : Res (Int × Int × BbRequest × BbReqProof)))
      (fun x y hxy => by rw [pow_mod_of_residue hMh (hxy 0), pow_mod_of_residue hMh (hxy 1)])
    rw [Fintype.card_fin] at key
    refine key.congr (fun o _ => ?_) (fun o _ => rfl)
    simp only [hXm, hXr]
    rfl
  exact step1.trans step2

/-- **C127**: so what two requesters with different messages and nonces send under the same public
parameters is distributed alike. -/
theorem C127_oblivious (S : BbSetup gs h n N s g ys xs v sk) (pk pk' : BbPublicKey)
    (bsk bsk' : BbPrivateKey) (ms rs ms' rs' : List Int) (I : BbInput gs N ys v pk bsk ms rs)
    (I' : BbInput gs N ys v pk' bsk' ms' rs')
    (hgs : ∀ c ∈ gs, ∃ k : Nat, c ≡ h ^ k [ZMOD n])
    (Mh Mg : Nat) (hMh0 : 0 < Mh) (hMh : h ^ Mh ≡ 1 [ZMOD n]) (hMg0 : 0 < Mg)
    (hMg : g ^ Mg ≡ 1 [ZMOD (N : Int) ^ (s + 1)])
    (L : Nat) (hL : ms.length = L) (hL' : ms'.length = L) (c : Nat)
    (H H' : (Fin 2 → Nat) × AllDraws L (numCts L ys.length) → Hashes)
    (hc : ∀ t ∈ requesterDraws v n N L (numCts L ys.length), ∀ cm cr req π,
      requesterSends (H t) v ms rs pk t = .ok (cm, cr, req, π) → BN.ofBytes π.challenge = c)
    (hc' : ∀ t ∈ requesterDraws v n N L (numCts L ys.length), ∀ cm cr req π,
      requesterSends (H' t) v ms' rs' pk' t = .ok (cm, cr, req, π) → BN.ofBytes π.challenge = c) :
    Close (requesterDraws v n N L (numCts L ys.length))
      (fun t => requesterSends (H t) v ms rs pk t)
      (fun t => requesterSends (H' t) v ms' rs' pk' t)
      (2 * (viewError v n N L (numCts L ys.length) Mh Mg + 2 * (n.toNat % Mh : Nat) / n.toNat)) := by
  rw [two_mul]
  exact (C127_view S pk bsk ms rs I hgs Mh Mg hMh0 hMh hMg0 hMg L hL c H hc).trans
    (C127_view S pk' bsk' ms' rs' I' hgs Mh Mg hMh0 hMh hMg0 hMg L hL' c H' hc').symm

/-! ### Safe primes -/

theorem safe_facts {P Q : Nat} (hP : SafePrime P) (hQ : SafePrime Q) (hne : P ≠ Q) :
    0 < P / 2 * (Q / 2) ∧ P * Q - (P * Q).totient ≤ P + Q ∧ P * Q % (P / 2 * (Q / 2)) ≤ P + Q ∧
    ∀ x : Int, Int.gcd x (P * Q : Nat) = 1 → x ^ (2 * (P / 2 * (Q / 2))) ≡ 1 [ZMOD (P * Q : Nat)] := by
  have hcop : Nat.Coprime P Q := (Nat.coprime_primes hP.1 hQ.1).2 hne
  obtain ⟨p, hp, hpP⟩ : ∃ p, P = 2 * p + 1 ∧ P / 2 = p := ⟨P / 2, by have := hP.2.1; omega, rfl⟩
  obtain ⟨q, hq, hqQ⟩ : ∃ q, Q = 2 * q + 1 ∧ Q / 2 = q := ⟨Q / 2, by have := hQ.2.1; omega, rfl⟩
  have p0 : 0 < p := by have := hP.2.2.pos; omega
  have q0 : 0 < q := by have := hQ.2.2.pos; omega
  refine ⟨by rw [hpP, hqQ]; positivity, ?_, ?_, ?_⟩
  · rw [Nat.totient_mul hcop, Nat.totient_prime hP.1, Nat.totient_prime hQ.1, hp, hq]
    simp only [Nat.add_sub_cancel]
    have : (2 * p + 1) * (2 * q + 1) = 2 * p * (2 * q) + (2 * p + 2 * q + 1) := by ring
    omega
  · rw [hpP, hqQ]
    have : P * Q = (2 * p + 2 * q + 1) + p * q * 4 := by rw [hp, hq]; ring
    rw [this, Nat.add_mul_mod_self_left]
    exact (Nat.mod_le _ _).trans (by omega)
  · intro x hx
    have key : ∀ (R r : Nat), R.Prime → R = 2 * r + 1 → R ∣ P * Q → ∀ e, x ^ (2 * r * e) ≡ 1 [ZMOD R] := by
      intro R r hR hr hd e
      have hxR : IsCoprime x (R : Int) := by
        have := Int.isCoprime_iff_gcd_eq_one.2 hx
        exact this.of_isCoprime_of_dvd_right (by exact_mod_cast hd)
      have := Int.ModEq.pow_card_sub_one_eq_one hR hxR
      have e1 : R - 1 = 2 * r := by omega
      rw [e1] at this
      rw [pow_mul]
      have := this.pow e
      rwa [one_pow] at this
    rw [hpP, hqQ]
    have k1 := key P p hP.1 hp (Dvd.intro _ rfl) q
    have k2 := key Q q hQ.1 hq (Dvd.intro_left _ rfl) p
    rw [show 2 * p * q = 2 * (p * q) by ring] at k1
    rw [show 2 * q * p = 2 * (p * q) by ring] at k2
    push_cast
    refine (Int.modEq_and_modEq_iff_modEq_mul ?_).1 ⟨k1, k2⟩
    simpa using hcop

/-- **C127** for the parameters the library generates: the encryption modulus `N = P Q` and the
commitment modulus `n = P' Q'` products of safe primes, `g` made by `GetGeneratorForCamenischShoup`
and `h` a square.  All terms of the distance are negligible. -/
theorem C127_safe (P Q P' Q' : Nat) (hP : SafePrime P) (hQ : SafePrime Q) (hPQ : P ≠ Q)
    (hP' : SafePrime P') (hQ' : SafePrime Q') (hPQ' : P' ≠ Q')
    (S : BbSetup gs h (P' * Q' : Nat) (P * Q) s g ys xs v sk)
    (x z : Int) (hx : Int.gcd x (P * Q : Nat) = 1) (hg : Cs.getGenerator (P * Q : Nat) s x = .ok g)
    (hz : h ≡ z ^ 2 [ZMOD (P' * Q' : Nat)])
    (hgs : ∀ c ∈ gs, ∃ k : Nat, c ≡ h ^ k [ZMOD (P' * Q' : Nat)])
    (pk : BbPublicKey) (bsk : BbPrivateKey) (ms rs : List Int)
    (I : BbInput gs (P * Q) ys v pk bsk ms rs) (L : Nat) (hL : ms.length = L) (c : Nat)
    (H : (Fin 2 → Nat) × AllDraws L (numCts L ys.length) → Hashes)
    (hc : ∀ t ∈ requesterDraws v (P' * Q' : Nat) (P * Q) L (numCts L ys.length), ∀ cm cr req π,
      requesterSends (H t) v ms rs pk t = .ok (cm, cr, req, π) → BN.ofBytes π.challenge = c) :
    Close (requesterDraws v (P' * Q' : Nat) (P * Q) L (numCts L ys.length))
      (fun t => requesterSends (H t) v ms rs pk t)
      (fun t => .ok (h ^ t.1 0 % (P' * Q' : Nat), h ^ t.1 1 % (P' * Q' : Nat),
        simView v h (P' * Q' : Nat) (P * Q) s g ys L (numCts L ys.length) c t.2))
      (((7 * L + 7 + numCts L ys.length : Nat) : ℚ) / 2 ^ v.params.sec.toNat +
        L / 2 ^ (v.params.chal + v.params.sec).toNat +
        3 * numCts L ys.length * ((P + Q : Nat) / (P * Q : Nat)) +
        (L + 5) * ((P' + Q' : Nat) / (P' * Q' : Nat))) := by
  obtain ⟨g0, g1, g2, g3⟩ := safe_facts hP hQ hPQ
  obtain ⟨h0, h1, h2, h3⟩ := safe_facts hP' hQ' hPQ'
  have hN0 : 0 < P * Q := Nat.mul_pos hP.1.pos hQ.1.pos
  have hn0 : 0 < P' * Q' := Nat.mul_pos hP'.1.pos hQ'.1.pos
  -- the order of g
  have hgen : g ≡ x ^ (2 * (P * Q) ^ s) [ZMOD ((P * Q : Nat) : Int) ^ (s + 1)] := by
    unfold Cs.getGenerator at hg
    rw [modExp_ok (by positivity) (by positivity)] at hg
    cases hg
    have : (2 * ((P * Q : Nat) : Int) ^ s).toNat = 2 * (P * Q) ^ s := by
      have : (2 * ((P * Q : Nat) : Int) ^ s) = ((2 * (P * Q) ^ s : Nat) : Int) := by push_cast; ring
      rw [this, Int.toNat_natCast]
    rw [this]
    exact Int.mod_modEq _ _
  have hMg : g ^ (P / 2 * (Q / 2)) ≡ 1 [ZMOD ((P * Q : Nat) : Int) ^ (s + 1)] := by
    refine (hgen.pow _).trans ?_
    have e1 := g3 x hx
    have e2 := dvd_sub_pow_of_dvd_sub (R := Int) (p := P * Q) (a := x ^ (2 * (P / 2 * (Q / 2))))
      (b := 1) (Int.ModEq.dvd e1.symm) s
    rw [one_pow] at e2
    have e3 := (Int.modEq_iff_dvd.2 e2).symm
    rw [← pow_mul] at e3 ⊢
    rwa [show 2 * (P * Q) ^ s * (P / 2 * (Q / 2)) = 2 * (P / 2 * (Q / 2)) * (P * Q) ^ s by ring]
  have hMh : h ^ (P' / 2 * (Q' / 2)) ≡ 1 [ZMOD (P' * Q' : Nat)] := by
    have hzU : Int.gcd z (P' * Q' : Nat) = 1 := by
      have hb := S.base
      have e : Int.gcd (h % (P' * Q' : Nat)) (P' * Q' : Nat) =
          Int.gcd (z ^ 2 % (P' * Q' : Nat)) (P' * Q' : Nat) := by rw [hz]
      rw [gcd_emod_left, gcd_emod_left, hb] at e
      exact Int.isCoprime_iff_gcd_eq_one.1
        ((IsCoprime.pow_left_iff (by norm_num)).1 (Int.isCoprime_iff_gcd_eq_one.2 e.symm))
    refine (hz.pow _).trans ?_
    rw [← pow_mul]
    exact h3 z hzU
  refine (C127_view S pk bsk ms rs I hgs _ _ h0 hMh g0 hMg L hL c H hc).mono ?_
  unfold viewError
  rw [Int.toNat_natCast]
  have b1 : ((P * Q - (P * Q).totient : Nat) : ℚ) / (P * Q : Nat) ≤ (P + Q : Nat) / (P * Q : Nat) := by
    gcongr
  have b2 : ((P * Q % (P / 2 * (Q / 2)) : Nat) : ℚ) / (P * Q : Nat) ≤ (P + Q : Nat) / (P * Q : Nat) := by
    gcongr
  have b3 : ((P' * Q' % (P' / 2 * (Q' / 2)) : Nat) : ℚ) / (P' * Q' : Nat) ≤
      (P' + Q' : Nat) / (P' * Q' : Nat) := by
    gcongr
  generalize ((P * Q - (P * Q).totient : Nat) : ℚ) = A at *
  generalize ((P * Q % (P / 2 * (Q / 2)) : Nat) : ℚ) = B at *
  generalize ((P' * Q' % (P' / 2 * (Q' / 2)) : Nat) : ℚ) = C at *
  generalize ((P * Q : Nat) : ℚ) = D at *
  generalize ((P' * Q' : Nat) : ℚ) = E at *
  generalize ((P + Q : Nat) : ℚ) = F at *
  generalize ((P' + Q' : Nat) : ℚ) = F' at *
  have hK0 : (0 : ℚ) ≤ numCts L ys.length := by positivity
  have hL0 : (0 : ℚ) ≤ L := by positivity
  have c1 := mul_le_mul_of_nonneg_left b1 hK0
  have c2 := mul_le_mul_of_nonneg_left b2 hK0
  have c3 := mul_le_mul_of_nonneg_left b3 (by linarith : (0 : ℚ) ≤ L + 5)
  push_cast
  simp only [mul_div_assoc] at *
  linarith

/-! ### The hypotheses are met

Encryption modulus 253 = 11 · 23, commitment modulus 59701 = 227 · 263, generators powers of 4 = 2². -/

def toyViewYs : List Int := [14770739, 7397537]
def toyViewGs : List Int := [16, 64, 256]
def toyViewParams : BbParams := ⟨1, 1, [], [1], ⟨[253], [3], [], 2⟩, ⟨[], [], []⟩⟩

def toyViewRun : Res (Int × Int) := do
  let ped ← Ped.create toyViewGs 4 59701 2
  let cs ← Cs.newPublic ⟨false, 3⟩ 253 2 5779326 toyViewYs
  let _ ← Cs.newPrivate ⟨true, 2⟩ 253 2 5779326 toyViewYs [3, 9]
  let v ← create toyViewParams toyEc cs ped
  let (_, bsk) ← generateKeys v 4 6 (fun i => 2 + i) (fun i => 4 + i)
  return (BN.ofBytes bsk.k, BN.ofBytes bsk.y)

/-- A hash function that ignores its input leads every requester to the same challenge. -/
theorem requester_met (S : BbSetup gs h n N s g ys xs v sk) (k : Bytes) : ∃ c : Nat,
    ∀ (pk : BbPublicKey) (bsk : BbPrivateKey) (ms rs : List Int),
      BbInput gs N ys v pk bsk ms rs → ∀ {L K : Nat}, ∀ t ∈ requesterDraws v n N L K, ∀ cm cr req π,
      requesterSends (Ped.fixedHash k) v ms rs pk t = .ok (cm, cr, req, π) →
      BN.ofBytes π.challenge = c := by
  obtain ⟨c, -, hc⟩ := requestChallenge_fixed S k
  refine ⟨c, ?_⟩
  intro pk bsk ms rs I L K t ht cm cr req π e
  have Md := S.made
  have Gd := Md.good
  have hn := Md.n0
  unfold requesterSends at e
  simp only [Res.bind_eq_ok, Res.pure_eq, Res.ok.injEq, Prod.mk.injEq] at e
  obtain ⟨⟨cm', om⟩, hcm, ⟨cr', orr⟩, hcr, ⟨req', π', st⟩, hgen, rfl, rfl, rfl, rfl⟩ := e
  have com : ∀ {l : List Int} {w : Nat} {C o : Int}, Ped.commit v.ped l w = .ok (C, o) →
      0 ≤ o ∧ Ped.commitWithRand v.ped l o = .ok C := by
    intro l w C o hco
    unfold Ped.commit at hco
    rw [Gd.n_eq, randLessThan_eq _ hn, Res.ok_bind, Res.bind_eq_ok] at hco
    obtain ⟨C', h1, h2⟩ := hco
    cases h2
    exact ⟨Int.emod_nonneg _ hn.ne', h1⟩
  have R : BbRun gs N ys v pk bsk ms rs cm' om cr' orr :=
    ⟨I.keys, I.sizes, I.messages, I.nonces, ⟨(com hcm).1, (com hcr).1⟩, (com hcm).2, (com hcr).2⟩
  obtain ⟨ks, yks, -, form⟩ := request_form S R
  obtain ⟨-, -, -, form'⟩ := form (drawsOf t.2) _ rfl _ rfl _ rfl
  obtain ⟨c', ⟨st, m1, hc'⟩, -, e'⟩ := form' (Ped.fixedHash k)
  rw [hc] at hc'
  cases hc'
  rw [hgen] at e'
  split at e'
  · simp only [Res.ok.injEq, Prod.mk.injEq] at e'
    obtain ⟨-, rfl, -⟩ := e'
    exact ofBytes_encB (by omega)
  · cases e'

/-- The hypotheses of `C127_safe`, and so those of `C127_view`, hold for two requesters with
different messages and nonces and one challenge, as `C127_oblivious` needs them. -/
theorem C127_reached : ∃ (v : BbSig (ZMod 11)) (sk : CsPrivate) (pk : BbPublicKey)
    (bsk : BbPrivateKey) (c : Nat),
    SafePrime 11 ∧ SafePrime 23 ∧ SafePrime 227 ∧ SafePrime 263 ∧
    BbSetup toyViewGs 4 (227 * 263 : Nat) (11 * 23) 2 5779326 toyViewYs [3, 9] v sk ∧
    Int.gcd 2 (11 * 23 : Nat) = 1 ∧ Cs.getGenerator (11 * 23 : Nat) 2 2 = .ok 5779326 ∧
    (4 : Int) ≡ 2 ^ 2 [ZMOD (227 * 263 : Nat)] ∧
    (∀ c ∈ toyViewGs, ∃ k : Nat, c ≡ 4 ^ k [ZMOD (227 * 263 : Nat)]) ∧
    BbInput toyViewGs (11 * 23) toyViewYs v pk bsk [1, 2, 10] [3, 0, 9] ∧
    BbInput toyViewGs (11 * 23) toyViewYs v pk bsk [4, 0, 7] [1, 2, 5] ∧
    (∀ t ∈ requesterDraws v (227 * 263 : Nat) (11 * 23) 3 2, ∀ cm cr req π,
      requesterSends (Ped.fixedHash []) v [1, 2, 10] [3, 0, 9] pk t = .ok (cm, cr, req, π) →
      BN.ofBytes π.challenge = c) ∧
    (∀ t ∈ requesterDraws v (227 * 263 : Nat) (11 * 23) 3 2, ∀ cm cr req π,
      requesterSends (Ped.fixedHash []) v [4, 0, 7] [1, 2, 5] pk t = .ok (cm, cr, req, π) →
      BN.ofBytes π.challenge = c) := by
  have hr : toyViewRun = .ok (5, 7) := by decide +kernel
  unfold toyViewRun at hr
  simp only [Res.bind_eq_ok, Res.pure_eq, Res.ok.injEq, Prod.mk.injEq] at hr
  obtain ⟨ped, hped, cs, hcs, sk, hsk, v, hv, ⟨pk, bsk⟩, hk, k5, y7⟩ := hr
  obtain ⟨e1, e2, rfl, rfl⟩ := create_eq_ok hv
  have S : BbSetup toyViewGs 4 (227 * 263 : Nat) (11 * 23) 2 5779326 toyViewYs [3, 9] v sk := by
    refine ⟨e2 ▸ toyEc_lawful, by decide, by decide,
      by decide, ⟨2, by decide, by decide, hped⟩, by decide, ?_, by decide, ⟨_, hcs⟩, ⟨_, hsk⟩,
      by rw [e1, e2]; exact hv, by rw [e1]; decide, by rw [e1]; decide⟩
    refine ⟨by decide, by decide, by decide, ?_⟩
    decide +kernel
  have inp : ∀ ms rs : List Int, ms.length = 3 → rs.length = 3 → (∀ m ∈ ms, 0 ≤ m ∧ m < 11) →
      (∀ m ∈ rs, 0 ≤ m ∧ m < 11) →
      (∀ i < 3, ¬ ms.getD i 0 + 5 + 7 * rs.getD i 0 ≡ 0 [ZMOD 11]) →
      BbInput toyViewGs (11 * 23) toyViewYs v pk bsk ms rs := by
    intro ms rs h1 h2 h3 h4 h5
    refine ⟨⟨_, _, _, _, ?_, ?_, hk⟩, ⟨by omega, by rw [h1]; decide⟩, ?_, ?_, ?_⟩
    · decide
    · decide
    · rw [e2]; exact h3
    · rw [e2]; exact h4
    · rw [e2, h1]
      simp only [k5, y7]
      exact h5
  have I := inp [1, 2, 10] [3, 0, 9] rfl rfl (by decide) (by decide) (by decide)
  have I' := inp [4, 0, 7] [1, 2, 5] rfl rfl (by decide) (by decide) (by decide)
  obtain ⟨c, hc⟩ := requester_met S []
  refine ⟨v, sk, pk, bsk, c, ⟨by norm_num, by decide, by norm_num⟩, ⟨by norm_num, by decide, by norm_num⟩,
    ⟨by norm_num, by decide, by norm_num⟩, ⟨by norm_num, by decide, by norm_num⟩, S, by decide,
    by decide +kernel, by decide, ?_, I, I',
    hc _ _ _ _ I, hc _ _ _ _ I'⟩
  intro c hcm
  fin_cases hcm
  · exact ⟨2, by decide⟩
  · exact ⟨3, by decide⟩
  · exact ⟨4, by decide⟩

end PJC.Props
