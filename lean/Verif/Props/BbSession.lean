import Verif.Props.BbAnswerRom
import Verif.Props.BbForge
import Verif.Props.CsCpa
import Verif.Props.BbZk
set_option linter.unusedSectionVars false
/-
C134: who obtains signatures through the oblivious protocol cannot forge another one.

Specification.  In the game a generator, an encryption key pair and the signer's keys are made as the
library makes them.  A requester sees all that is public and chooses messages; nonces are drawn; the
requester makes commitments and a request as the library does, with any randomness it likes, and is shown
the signer's response and proof.  SHA-512 is a random function, of which the requester sees all values
in the end.  It wins with a signature on a message and a nonce that were not in the request.
-/
namespace PJC.BbSession
open PJC PJC.Bb PJC.Props PJC.Prob PJC.Oracle PJC.Stat PJC.CsCpa PJC.BbForge PJC.RomSound PJC.Protocol

variable {G : Type} [AddCommGroup G] [DecidableEq G]

/-! ### Specification -/

/-- A requester with coins in `C`.  It chooses the messages when it has seen the public object and the
signer's public key; the draws of its two commitments and of its request when it has also seen the
nonces; in the end, from the signer's answer and the table of SHA-512, a message, a nonce and a
signature. -/
structure Requester (G C : Type) where
  messages : BbSig G → BbPublicKey → C → List Int
  draws : BbSig G → BbPublicKey → C → List Int → Nat × Nat × ReqDraws
  out : BbSig G → BbPublicKey → C → List Int → Res (List Bytes × BbRespProof) → (Bytes → Digest) →
    Int × Int × G

/-- The requester asks for signatures on `L` messages below `q`. -/
def Requester.Fair {C : Type} (R : Requester G C) (q L : Nat) : Prop :=
  ∀ v pk c, (R.messages v pk c).length = L ∧ ∀ m ∈ R.messages v pk c, 0 ≤ m ∧ m < q

/-- What the requester sends: commitments to the messages and the nonces, and the request; and the
state that it keeps. -/
def requested (H : Hashes) (v : BbSig G) (pk : BbPublicKey) (ms rs : List Int)
    (ρ : Nat × Nat × ReqDraws) : Res (Int × Int × BbRequest × List Bytes) := do
  let cm ← Ped.commit v.ped ms ρ.1
  let cr ← Ped.commit v.ped rs ρ.2.1
  let rq ← generateRequest H v ms rs pk cm.1 cm.2 cr.1 cr.2 ρ.2.2
  return (cm.1, cr.1, rq.1, rq.2.2)

/-- The signer's answer to what the requester sends. -/
def exchange (H : Hashes) (v : BbSig G) (sk : CsPrivate) (pk : BbPublicKey) (ms rs : List Int)
    (ρ : Nat × Nat × ReqDraws) (d : RespDraws) : Res (List Bytes × BbRespProof) := do
  let a ← requested H v pk ms rs ρ
  generateResponse H v sk a.2.2.1 pk a.1 a.2.1 d

/-- The public object for the generator `base` and the encryption key `key`; the other parameters are
those of `params`. -/
def object (params : BbParams) (E : EcGroup G) (ped : Pedersen) (cfg : ExpCfg) (base : G)
    (key : CsPublicKey) : Res (BbSig G) := do
  let b ← E.toBytesCompressed base
  let p ← Cs.publicKeyToProto key
  let cs ← Cs.newPublic cfg key.n key.s key.g key.ys
  create { params with baseG := b, cs := p } E cs ped

/-- The `i`-th draw. -/
def at_ {N m : Nat} (r : Fin m → (ZMod N)ˣ) (i : Nat) : Int :=
  if h : i < m then drawn (r ⟨i, h⟩) else 0

/-- The set-up: the public object, the signer's decryption key, and its public and private key. -/
def world (params : BbParams) (E : EcGroup G) (ped : Pedersen) (cfg cfg' : ExpCfg) (N s l : Nat)
    (base k y : Draw E) (x₀ : (ZMod (N ^ (s + 1)))ˣ) (xs : Fin l → (ZMod N)ˣ)
    (r : Fin (l + l) → (ZMod N)ˣ) : Res (BbSig G × CsPrivate × BbPublicKey × BbPrivateKey) := do
  let kp ← Cs.generateKeyPair N s (drawn x₀) (List.ofFn fun i => drawn (xs i))
  let sk ← Cs.newPrivate cfg' kp.1.n kp.1.s kp.1.g kp.1.ys kp.2.xs
  let b ← E.getRandomGenerator base.val
  let v ← object params E ped cfg b kp.1
  let keys ← generateKeys v k.val y.val (fun i => at_ r i) (fun i => at_ r (l + i))
  return (v, sk, keys.1, keys.2)

/-- A forgery: a signature on a message and a nonce of which no signature was asked for. -/
def Forgery (v : BbSig G) (bsk : BbPrivateKey) (ms rs : List Int) (o : Int × Int × G) : Prop :=
  IsBbSig v (BN.ofBytes bsk.k) (BN.ofBytes bsk.y) o.1 o.2.1 o.2.2 ∧
    ∀ i < ms.length, ¬ (ms.getD i 0 ≡ o.1 [ZMOD v.group.order] ∧
      rs.getD i 0 ≡ o.2.1 [ZMOD v.group.order])

/-- The nonces as numbers. -/
def nonces {q L : Nat} (ns : Fin L → ZMod q) : List Int := List.ofFn fun i => ((ns i).val : Int)

/-- The requester wins. -/
def Wins {C : Type} (R : Requester G C) (H : Hashes) (O : Bytes → Digest) (v : BbSig G) (sk : CsPrivate)
    (pk : BbPublicKey) (bsk : BbPrivateKey) (rs : List Int) (d : RespDraws) (c : C) : Prop :=
  Forgery v bsk (R.messages v pk c) rs (R.out v pk c rs
    (exchange (withSha512 H O) v sk pk (R.messages v pk c) rs (R.draws v pk c rs) d) O)

/-- The bounds of the signer's masks (bb_oblivious_signature.cc:1170-1184). -/
def maskBounds (params : BbParams) (q N L l : Nat) : RespMask L l → Nat
  | .inl _ => q * (q * q * 2 ^ (params.chal + params.sec).toNat * 2 ^ (params.chal + params.sec).toNat)
  | .inr _ => N * 2 ^ (params.chal + params.sec).toNat

/-- The draws of the signer's answer: an opening below `n` and the masks. -/
abbrev AnsT (params : BbParams) (q n N L l : Nat) : Type :=
  (Fin 1 → Fin n) × ((i : RespMask L l) → Fin (maskBounds params q N L l i))

/-! ### One answer, simulated -/

/-- An answer that is simulated from the signatures (an error if there is none on one of the messages),
and the function that goes with it. -/
def simulate (H : Hashes) (h n : Int) (v : BbSig G) (pk : BbPublicKey) (ms rs : List Int)
    (ρ : Nat × Nat × ReqDraws) (os : List (Option G)) {k L : Nat} (t : AnswerDraws k L) (y : Digest)
    (O : Bytes → Digest) : Res (List Bytes × BbRespProof) × (Bytes → Digest) :=
  match requested (withSha512 H O) v pk ms rs ρ with
  | .ok a => match os.mapM id with
    | some σs =>
      (simAnswer v h n a.2.2.2 σs (chalOf v.params.chal.toNat y) t,
        program O (hashedAnswer v pk a.1 a.2.1 a.2.2.1
          (simAnswer v h n a.2.2.2 σs (chalOf v.params.chal.toNat y) t)) y)
    | none => (.err .invalidArgument, O)
  | .err e => (.err e, O)
  | .crash => (.crash, O)
  | .ub => (.ub, O)

section
variable {gs : List Int} {h n : Int} {N s : Nat} {g : Int} {ys xs : List Int} {v : BbSig G}
  {sk : CsPrivate}

/-- What the requester sends does not depend on the hash function. -/
theorem requested_hash (S : BbSetup gs h n N s g ys xs v sk) {pk : BbPublicKey} {bsk : BbPrivateKey}
    {ms rs : List Int} (ρ : Nat × Nat × ReqDraws)
    (R : ∀ cm om cr orr, 0 ≤ om → 0 ≤ orr → Ped.commitWithRand v.ped ms om = .ok cm →
      Ped.commitWithRand v.ped rs orr = .ok cr → BbRun gs N ys v pk bsk ms rs cm om cr orr)
    (H H' : Hashes) : requested H v pk ms rs ρ = requested H' v pk ms rs ρ := by
  unfold requested
  cases h1 : Ped.commit v.ped ms ρ.1 with
  | err e => simp only [Res.err_bind]
  | crash => simp only [Res.crash_bind]
  | ub => simp only [Res.ub_bind]
  | ok cm =>
  cases h2 : Ped.commit v.ped rs ρ.2.1 with
  | err e => simp only [Res.err_bind]
  | crash => simp only [Res.crash_bind]
  | ub => simp only [Res.ub_bind]
  | ok cr =>
  simp only [Res.ok_bind]
  have hn := S.made.n0
  have Gd := S.made.good
  have open_ : ∀ {ms : List Int} {w : Nat} {c : Int × Int}, Ped.commit v.ped ms w = .ok c →
      0 ≤ c.2 ∧ Ped.commitWithRand v.ped ms c.2 = .ok c.1 := by
    intro ms w c hc
    unfold Ped.commit at hc
    rw [Gd.n_eq, randLessThan_eq _ hn, Res.ok_bind] at hc
    obtain ⟨c', hc', e⟩ := Res.bind_eq_ok.1 hc
    cases e
    exact ⟨Int.emod_nonneg _ hn.ne', hc'⟩
  obtain ⟨a1, a2⟩ := open_ h1
  obtain ⟨b1, b2⟩ := open_ h2
  obtain ⟨ks, yks, -, form⟩ := request_form S (R _ _ _ _ a1 b1 a2 b2)
  obtain ⟨-, -, -, f⟩ := form ρ.2.2 _ rfl _ rfl _ rfl
  obtain ⟨c, -, -, e⟩ := f H
  obtain ⟨c', -, -, e'⟩ := f H'
  rw [e, e']
  split <;> rfl

/-- `requested` in terms of `generateRequest`. -/
theorem requested_ok (S : BbSetup gs h n N s g ys xs v sk) {pk : BbPublicKey} {H : Hashes}
    {ms rs : List Int} {ρ : Nat × Nat × ReqDraws} {cm cr : Int} {req : BbRequest} {st : List Bytes}
    (hr : requested H v pk ms rs ρ = .ok (cm, cr, req, st)) :
    ∃ om orr π, 0 ≤ om ∧ 0 ≤ orr ∧ Ped.commitWithRand v.ped ms om = .ok cm ∧
      Ped.commitWithRand v.ped rs orr = .ok cr ∧
      generateRequest H v ms rs pk cm om cr orr ρ.2.2 = .ok (req, π, st) := by
  have hn := S.made.n0
  have Gd := S.made.good
  have open_ : ∀ {ms : List Int} {w : Nat} {c : Int × Int}, Ped.commit v.ped ms w = .ok c →
      0 ≤ c.2 ∧ Ped.commitWithRand v.ped ms c.2 = .ok c.1 := by
    intro ms w c hc
    unfold Ped.commit at hc
    rw [Gd.n_eq, randLessThan_eq _ hn, Res.ok_bind] at hc
    obtain ⟨c', hc', e⟩ := Res.bind_eq_ok.1 hc
    cases e
    exact ⟨Int.emod_nonneg _ hn.ne', hc'⟩
  unfold requested at hr
  simp only [Res.bind_eq_ok, Res.pure_eq, Res.ok.injEq, Prod.mk.injEq] at hr
  obtain ⟨c1, h1, c2, h2, ⟨rq, π, st'⟩, h3, rfl, rfl, rfl, rfl⟩ := hr
  obtain ⟨a1, a2⟩ := open_ h1
  obtain ⟨b1, b2⟩ := open_ h2
  exact ⟨_, _, π, a1, b1, a2, b2, h3⟩

theorem mapM_id_some {α : Type} {os : List (Option α)} {l : List α} (h : os.mapM id = some l) :
    os = l.map some := by
  induction os generalizing l with
  | nil => simp at h; subst h; rfl
  | cons o os ih =>
    rw [List.mapM_cons] at h
    cases o with
    | none => simp at h
    | some a =>
      cases hl : os.mapM id with
      | none => rw [hl] at h; simp at h
      | some l' =>
        rw [hl] at h
        simp at h
        subst h
        simp [ih hl]

theorem mapM_id_none {α : Type} {os : List (Option α)} (h : os.mapM id = none) : none ∈ os := by
  induction os with
  | nil => simp at h
  | cons o os ih =>
    rw [List.mapM_cons] at h
    cases o with
    | none => simp
    | some a =>
      cases hl : os.mapM id with
      | none => exact List.mem_cons_of_mem _ (ih hl)
      | some l' => rw [hl] at h; simp at h

open scoped Classical in
/-- The answer in a session can be simulated. -/
theorem exchange_close (S : BbSetup gs h n N s g ys xs v sk) (hx : ∀ x ∈ xs, x < N) (κ : Nat)
    (hκ : n ≤ κ * N) (hchal : v.params.chal ≤ 511) {pk : BbPublicKey} {bsk : BbPrivateKey}
    {ms rs : List Int} (ρ : Nat × Nat × ReqDraws)
    (R : ∀ cm om cr orr, 0 ≤ om → 0 ≤ orr → Ped.commitWithRand v.ped ms om = .ok cm →
      Ped.commitWithRand v.ped rs orr = .ok cr → BbRun gs N ys v pk bsk ms rs cm om cr orr)
    (hgs : ∀ c ∈ gs, ∃ k : Nat, c ≡ h ^ k [ZMOD n]) (Mh : Nat) (hMh0 : 0 < Mh)
    (hMh : h ^ Mh ≡ 1 [ZMOD n]) (os : List (Option G)) (hlen : os.length = ms.length)
    (hos : ∀ i < ms.length, ∀ σ, IsBbSig v (BN.ofBytes bsk.k) (BN.ofBytes bsk.y) (ms.getD i 0)
      (rs.getD i 0) σ ↔ os.getD i none = some σ)
    (H : Hashes) (B : Bytes → Digest) (D : Finset Bytes)
    {n' L l : Nat} (hn' : n = n') (hL : ms.length = L) (hl : ys.length = l)
    (hD : ∀ (t : AnsT v.params v.group.order n' N L l) O cm cr req st,
      requested (withSha512 H O) v pk ms rs ρ = .ok (cm, cr, req, st) → ∀ x,
      hashedAnswer v pk cm cr req (generateResponse (withSha512 H O) v sk req pk cm cr
        (answerOf (answerVal t))) = some x → x ∈ D)
    (A : Res (List Bytes × BbRespProof) → (Bytes → Digest) → Prop) :
    |prob (fun t : AnsT v.params v.group.order n' N L l × (D → Digest) =>
        A (exchange (withSha512 H (graft B D t.2)) v sk pk ms rs ρ (answerOf (answerVal t.1)))
          (graft B D t.2)) -
      prob (fun t : AnsT v.params v.group.order n' N L l × Digest × (D → Digest) =>
        A (simulate H h n v pk ms rs ρ os (answerVal t.1) t.2.1 (graft B D t.2.2)).1
          (simulate H h n v pk ms rs ρ os (answerVal t.1) t.2.1 (graft B D t.2.2)).2)| ≤
      ((2 * L + l + κ : Nat) : ℚ) / 2 ^ v.params.sec.toNat +
        L / v.group.order + (n' % Mh : Nat) / n' := by
  have M := S.made
  have hreq := fun O => requested_hash S ρ R (withSha512 H O) (withSha512 H fun _ _ => 0)
  have hε : (0 : ℚ) ≤ ((2 * L + l + κ : Nat) : ℚ) / 2 ^ v.params.sec.toNat +
        L / v.group.order + (n' % Mh : Nat) / n' := by positivity
  -- nothing to simulate
  have easy : ∀ r : Res (List Bytes × BbRespProof),
      (∀ O t, exchange (withSha512 H O) v sk pk ms rs ρ (answerOf (answerVal
        (t : AnsT v.params v.group.order n' N L l))) = r) →
      (∀ O t y, simulate H h n v pk ms rs ρ os (answerVal
        (t : AnsT v.params v.group.order n' N L l)) y O = (r, O)) →
      |prob (fun t : AnsT v.params v.group.order n' N L l × (D → Digest) =>
        A (exchange (withSha512 H (graft B D t.2)) v sk pk ms rs ρ (answerOf (answerVal t.1)))
          (graft B D t.2)) -
      prob (fun t : AnsT v.params v.group.order n' N L l × Digest × (D → Digest) =>
        A (simulate H h n v pk ms rs ρ os (answerVal t.1) t.2.1 (graft B D t.2.2)).1
          (simulate H h n v pk ms rs ρ os (answerVal t.1) t.2.1 (graft B D t.2.2)).2)| ≤
      ((2 * L + l + κ : Nat) : ℚ) / 2 ^ v.params.sec.toNat +
        L / v.group.order + (n' % Mh : Nat) / n' := by
    intro r e1 e2
    refine resampled_close
      (fun (t : AnsT v.params v.group.order n' N L l) o => A (exchange (withSha512 H (graft B D o)) v sk
        pk ms rs ρ (answerOf (answerVal t))) (graft B D o))
      (fun t y o => A (simulate H h n v pk ms rs ρ os (answerVal t) y (graft B D o)).1
        (simulate H h n v pk ms rs ρ os (answerVal t) y (graft B D o)).2)
      (fun t y o => A (simulate H h n v pk ms rs ρ os (answerVal t) y (graft B D o)).1
        (simulate H h n v pk ms rs ρ os (answerVal t) y (graft B D o)).2) hε (fun t => ?_)
      (fun y o => by rw [sub_self, abs_zero]; exact hε)
    simp only [e1, e2]
    exact (prob_snd (α := Digest) (fun o : D → Digest => A r (graft B D o))).symm
  cases hr : requested (withSha512 H fun _ _ => 0) v pk ms rs ρ with
  | err e =>
    refine easy (.err e) (fun O t => ?_) fun O t y => ?_
    · unfold exchange; rw [hreq, hr]; rfl
    · unfold simulate; rw [hreq, hr]
  | crash =>
    refine easy .crash (fun O t => ?_) fun O t y => ?_
    · unfold exchange; rw [hreq, hr]; rfl
    · unfold simulate; rw [hreq, hr]
  | ub =>
    refine easy .ub (fun O t => ?_) fun O t y => ?_
    · unfold exchange; rw [hreq, hr]; rfl
    · unfold simulate; rw [hreq, hr]
  | ok a =>
  obtain ⟨cm, cr, req, st⟩ := a
  obtain ⟨om, orr, π, o1, o2, c1, c2, hgen⟩ := requested_ok S hr
  have Rn := R _ _ _ _ o1 o2 c1 c2
  cases hm : os.mapM id with
  | none =>
    refine easy (.err .invalidArgument) (fun O t => ?_) fun O t y => ?_
    · unfold exchange
      rw [hreq, hr, Res.ok_bind]
      have hnone := mapM_id_none hm
      obtain ⟨i, hi, e⟩ := List.mem_iff_getElem.1 hnone
      have hi' : i < ms.length := by omega
      rcases C62_response gs h n N s g ys xs v sk S pk bsk ms rs cm om cr orr Rn _ (withSha512 H O) _ req π
        st hgen (answerOf (answerVal t)) with ⟨h, -⟩ | ⟨h, -⟩
      · exact h
      · exfalso
        obtain ⟨e1, _, _⟩ := BN.inv_spec (by have := M.order; omega : (0 : Int) < v.group.order)
          ((M.gcd_iff _).2 fun hd => h i hi' (Int.modEq_zero_iff_dvd.2 hd))
        have := (hos i hi' _).1 ⟨_, by rw [mul_comm]; exact e1, rfl⟩
        rw [List.getD_eq_getElem _ _ hi, e] at this
        cases this
    · unfold simulate
      rw [hreq, hr]
      simp only [hm]
  | some σs =>
    have hmap := mapM_id_some hm
    have hσl : σs.length = ms.length := by rw [← hlen, hmap, List.length_map]
    have hσ : ∀ i < ms.length, IsBbSig v (BN.ofBytes bsk.k) (BN.ofBytes bsk.y) (ms.getD i 0)
        (rs.getD i 0) (σs.getD i 0) := by
      intro i hi
      rw [hos i hi, hmap, List.getD_eq_getElem _ _ (by simpa using by omega), List.getElem_map,
        List.getD_eq_getElem _ _ (by omega)]
    subst hL hl hn'
    have key := C133_rom S hx κ hκ hchal pk bsk ms rs cm om cr orr Rn hgs Mh hMh0 hMh _ _ req π st hgen
      σs hσl hσ H B D (fun t O x hx => by
        exact hD t O cm cr req st (by rw [hreq, hr]) x hx) A
    have e1 : ∀ O d, exchange (withSha512 H O) v sk pk ms rs ρ d =
        generateResponse (withSha512 H O) v sk req pk cm cr d := by
      intro O d
      unfold exchange
      rw [hreq, hr, Res.ok_bind]
    have e2 : ∀ O (t : AnsT v.params v.group.order n' N ms.length ys.length) y,
        simulate H h n' v pk ms rs ρ os (answerVal t) y O =
        (simAnswer v h n' st σs (chalOf v.params.chal.toNat y) (answerVal t),
          program O (hashedAnswer v pk cm cr req
            (simAnswer v h n' st σs (chalOf v.params.chal.toNat y) (answerVal t))) y) := by
      intro O t y
      unfold simulate
      rw [hreq, hr]
      simp only [hm]
    simp only [e1, e2]
    exact key

end

/-! ### The game -/

section
variable (params : BbParams) (E : EcGroup G) (ped : Pedersen) (cfg cfg' : ExpCfg) (h : Int)
  (n N s l L : Nat) [NeZero N] (H : Hashes) (B : Bytes → Digest) (D : Finset Bytes) {C : Type}
  (R : Requester G C)

/-- What is drawn before the signer answers: generator, keys, the encryption key, the randomness of the
encryptions of the keys, nonces and the requester's coins. -/
abbrev Setup (C : Type) : Type :=
  Draw E × Draw E × Draw E × (ZMod (N ^ (s + 1)))ˣ × (Fin l → (ZMod N)ˣ) × (Fin (l + l) → (ZMod N)ˣ) ×
    (Fin L → ZMod E.order) × C

/-- The set-up of a session. -/
def worldOf (x : Setup E N s l L C) : Res (BbSig G × CsPrivate × BbPublicKey × BbPrivateKey) :=
  world params E ped cfg cfg' N s l x.1 x.2.1 x.2.2.1 x.2.2.2.1 x.2.2.2.2.1 x.2.2.2.2.2.1

open scoped Classical in
/-- The probability that the requester wins; all draws are uniform. -/
noncomputable def sessionProb [NeZero E.order] [Fintype C] : ℚ :=
  prob fun t : Setup E N s l L C × AnsT params E.order n N L l × (D → Digest) =>
    ∃ v sk pk bsk, worldOf params E ped cfg cfg' N s l L t.1 = .ok (v, sk, pk, bsk) ∧
      Wins R H (graft B D t.2.2) v sk pk bsk (nonces t.1.2.2.2.2.2.2.1) (answerOf (answerVal t.2.1))
        t.1.2.2.2.2.2.2.2

/-- The set `D` contains the strings that the signer hashes. -/
def Covers : Prop :=
  ∀ (x : Setup E N s l L C) v sk pk bsk, worldOf params E ped cfg cfg' N s l L x = .ok (v, sk, pk, bsk) →
    ∀ (t : AnsT params E.order n N L l) O cm cr req st,
      requested (withSha512 H O) v pk (R.messages v pk x.2.2.2.2.2.2.2) (nonces x.2.2.2.2.2.2.1)
        (R.draws v pk x.2.2.2.2.2.2.2 (nonces x.2.2.2.2.2.2.1)) = .ok (cm, cr, req, st) →
      ∀ z, hashedAnswer v pk cm cr req (generateResponse (withSha512 H O) v sk req pk cm cr
        (answerOf (answerVal t))) = some z → z ∈ D

/-! ### The algorithms -/

/-- A public key of the signature scheme, from ciphertexts. -/
def cipherKey (cts : List CsCt) : BbPublicKey := ⟨(cts.take l).map ctB, (cts.drop l).map ctB⟩

/-- What the requester puts forward after a simulated answer. -/
def guess (v : BbSig G) (pk : BbPublicKey) (c : C) (rs : List Int) (os : List (Option G))
    (t : AnsT params E.order n N L l) (y : Digest) (O : Bytes → Digest) : Int × Int × G :=
  R.out v pk c rs
    (simulate H h n v pk (R.messages v pk c) rs (R.draws v pk c rs) os (answerVal t) y O).1
    (simulate H h n v pk (R.messages v pk c) rs (R.draws v pk c rs) os (answerVal t) y O).2

/-- The signatures. -/
def signatures (base : G) (k y : ZMod E.order) (ms : List Int) (ns : Fin L → ZMod E.order) :
    List (Option G) :=
  List.ofFn fun i => bbSign E base k y (ms.getD i 0 : Int) (ns i)

/-- The requester forges after a simulated answer. -/
def SimWins (v : BbSig G) (pk : BbPublicKey) (base : G) (k y : ZMod E.order) (ns : Fin L → ZMod E.order)
    (c : C) (t : AnsT params E.order n N L l) (d : Digest) (O : Bytes → Digest) : Prop :=
  let ms := R.messages v pk c
  let o := guess params E h n N l L H R v pk c (nonces ns) (signatures E L base k y ms ns) t d O
  bbSign E base k y (o.1 : ZMod E.order) (o.2.1 : ZMod E.order) = some o.2.2 ∧
    ∀ i : Fin L, ¬ ((ms.getD i 0 : ZMod E.order) = (o.1 : ZMod E.order) ∧ ns i = (o.2.1 : ZMod E.order))

/-- What is drawn besides the encryption key and the randomness of encryptions. -/
abbrev SpyCoins (C : Type) : Type :=
  Draw E × Draw E × Draw E × (Fin L → ZMod E.order) × C × AnsT params E.order n N L l × Digest ×
    (D → Digest)

/-- The spy on the encryption scheme: it asks for encryptions of the signer's keys, or of zeros, plays
the game with simulated answers, and says yes if the requester wins. -/
def spy : Spy (SpyCoins params E n N l L D C) where
  ask _ z sofar :=
    (if sofar.length < l then slot l sofar.length z.2.1.scalar
      else slot l (sofar.length - l) z.2.2.1.scalar, List.replicate l 0)
  yes key z cts := ∃ v, object params E ped cfg (z.1.point E) key = .ok v ∧
    SimWins params E h n N l L H R v (cipherKey l cts) (z.1.point E) (z.2.1.scalar : ZMod E.order)
      (z.2.2.1.scalar : ZMod E.order) z.2.2.2.1 z.2.2.2.2.1 z.2.2.2.2.2.1 z.2.2.2.2.2.2.1
      (graft B D z.2.2.2.2.2.2.2)

/-- The coins of the forger. -/
abbrev ForgerCoins (C : Type) : Type :=
  (ZMod (N ^ (s + 1)))ˣ × (Fin l → (ZMod N)ˣ) × (Fin (l + l) → (ZMod N)ˣ) × C ×
    AnsT params E.order n N L l × Digest × (D → Digest)

/-- A public key with encryptions of zeros. -/
def zeroKey (x₀ : (ZMod (N ^ (s + 1)))ˣ) (xs : Fin l → (ZMod N)ˣ) (r : Fin (l + l) → (ZMod N)ˣ) :
    BbPublicKey :=
  cipherKey l (List.ofFn fun j => encR (pw (gen N s x₀) (r j))
    (fun i => pw (pw (gen N s x₀) (xs i)) (r j)) (List.replicate l 0))

/-- The public object of the forger. -/
def objectOf (base : G) (x₀ : (ZMod (N ^ (s + 1)))ˣ) (xs : Fin l → (ZMod N)ˣ) : Res (BbSig G) :=
  object params E ped cfg base (pkOf (gen N s x₀) fun i => pw (gen N s x₀) (xs i))

/-- The forger of signatures: it makes an encryption key and encryptions of zeros itself, asks for
signatures on the messages of the requester, and simulates the answer. -/
def forger : Forger E (ForgerCoins params E n N s l L D C) where
  ask base z seen := match objectOf params E ped cfg N s l base z.1 z.2.1 with
    | .ok v => ((R.messages v (zeroKey N s l z.1 z.2.1 z.2.2.1) z.2.2.2.1).getD seen.length 0 : Int)
    | _ => 0
  out base z seen := match objectOf params E ped cfg N s l base z.1 z.2.1 with
    | .ok v =>
      let o := guess params E h n N l L H R v (zeroKey N s l z.1 z.2.1 z.2.2.1) z.2.2.2.1
        (seen.map fun e => (e.1.val : Int)) (seen.map Prod.snd) z.2.2.2.2.1 z.2.2.2.2.2.1
        (graft B D z.2.2.2.2.2.2)
      ((o.1 : ZMod E.order), (o.2.1 : ZMod E.order), o.2.2)
    | _ => (0, 0, 0)

end

/-! ### Proof -/

theorem prob_prod_le {α β γ : Type} [Fintype α] [Nonempty α] [Fintype β] [Fintype γ] (S : α → β → Prop)
    (T : α → γ → Prop) [∀ a b, Decidable (S a b)] [∀ a b, Decidable (T a b)] {ε : ℚ}
    (hST : ∀ a, prob (S a) ≤ prob (T a) + ε) :
    prob (fun t : α × β => S t.1 t.2) ≤ prob (fun t : α × γ => T t.1 t.2) + ε := by
  rw [prob_prod S, prob_prod T]
  have hc : (0 : ℚ) < Fintype.card α := by exact_mod_cast Fintype.card_pos
  have e : ε = (∑ _a : α, ε) / Fintype.card α := by
    rw [Finset.sum_const, Finset.card_univ, nsmul_eq_mul]
    field_simp
  rw [e, ← add_div, ← Finset.sum_add_distrib]
  gcongr with a
  exact hST a

theorem prob_pos {α : Type} [Fintype α] {S : α → Prop} [DecidablePred S] (a : α) (h : S a) :
    0 < prob S := by
  unfold prob
  apply div_pos
  · exact_mod_cast Finset.card_pos.2 ⟨a, Finset.mem_filter.2 ⟨Finset.mem_univ _, h⟩⟩
  · exact_mod_cast Fintype.card_pos_iff.2 ⟨a⟩

theorem sandwich {a p q b ε : ℚ} (h : |p - q| ≤ ε) (h1 : a ≤ p) (h2 : q ≤ b) : a ≤ b + ε := by
  have := (abs_le.1 h).2
  linarith

theorem run_length {Q X : Type} (q : Nat → Q) : ∀ (fs : List (Q → X)) (sofar : List X),
    run (fun l => q l.length) fs sofar = sofar ++ fs.mapIdx fun i f => f (q (sofar.length + i))
  | [], sofar => by simp [run]
  | f :: fs, sofar => by
    rw [run, run_length q fs]
    simp [List.mapIdx_cons, Nat.add_assoc, Nat.add_comm 1]

theorem run_ofFn {Q X : Type} (q : Nat → Q) {m : Nat} (f : Fin m → Q → X) :
    run (fun l => q l.length) (List.ofFn f) [] = List.ofFn fun i => f i (q i) := by
  rw [run_length]
  apply List.ext_getElem
  · simp
  · intro i h1 h2
    simp

theorem talk_length {E : EcGroup G} {C : Type} (F : Forger E C) (base : G) (c : C)
    (a : Nat → ZMod E.order → ZMod E.order × Option G) (n : Nat) : (talk F base c a n).length = n := by
  induction n with
  | zero => rfl
  | succ n ih => simp [talk, ih]

/-- The conversation with a forger whose questions depend on nothing but their number. -/
theorem talk_fixed {E : EcGroup G} {C : Type} (F : Forger E C) (base : G) (c : C)
    (a : Nat → ZMod E.order → ZMod E.order × Option G) (m : Nat → ZMod E.order)
    (hm : ∀ l, F.ask base c l = m l.length) (n : Nat) :
    talk F base c a n = List.ofFn fun i : Fin n => (m i, a i (m i)) := by
  induction n with
  | zero => rfl
  | succ n ih =>
    rw [List.ofFn_succ_last, talk, hm, List.length_map, talk_length, ih]
    rfl

section
variable {params : BbParams} {E : EcGroup G} [hE : Fact E.Lawful] {ped : Pedersen} {cfg cfg' : ExpCfg}
  {h : Int} {n N s l L : Nat} [NeZero N] {H : Hashes} {B : Bytes → Digest} {D : Finset Bytes} {C : Type}
  {R : Requester G C}

/-- A public object. -/
theorem object_ok {base : G} {key : CsPublicKey} {v : BbSig G}
    (hv : object params E ped cfg base key = .ok v) :
    ∃ b p cs, v = ⟨{ params with baseG := b, cs := p }, E, base, cs, ped⟩ ∧
      Cs.newPublic cfg key.n key.s key.g key.ys = .ok cs ∧
      create v.params v.group v.cs v.ped = .ok v := by
  unfold object at hv
  simp only [Res.bind_eq_ok] at hv
  obtain ⟨b, hb, p, -, cs, hcs, hv⟩ := hv
  have hc := hv
  unfold create at hv
  split at hv
  · cases hv
  split at hv
  · cases hv
  simp only [Res.bind_eq_ok] at hv
  obtain ⟨bound, -, hv⟩ := hv
  split at hv
  · cases hv
  split at hv
  · cases hv
  simp only [Res.bind_eq_ok] at hv
  obtain ⟨g, hg, hv⟩ := hv
  rw [(hE.out.toBytes_ok hb).2] at hg
  cases hg
  cases hv
  exact ⟨b, p, cs, rfl, hcs, hc⟩

theorem at_lt {m : Nat} (r : Fin m → (ZMod N)ˣ) {i : Nat} (hi : i < m) : at_ r i = drawn (r ⟨i, hi⟩) := by
  simp [at_, hi]

theorem drawn_ok {m : Nat} (u : (ZMod m)ˣ) : 0 ≤ drawn u ∧ Int.gcd (drawn u) m = 1 :=
  ⟨Int.natCast_nonneg _, ZMod.val_coe_unit_coprime u⟩

/-- What the set-up consists of. -/
theorem world_ok {gs : List Int} (hn : 1 < n) (hgs : ∀ c ∈ gs, Int.gcd c n = 1) (hh : Int.gcd h n = 1)
    (hped : ∃ k, 1 ≤ k ∧ k < 31 ∧ Ped.create gs h n k = .ok ped) (hN : 1 < N) (hl : 0 < l)
    (hchal : params.chal ≤ 511) (hsec : params.sec ≤ 2 ^ 28) {base k y : Draw E}
    {x₀ : (ZMod (N ^ (s + 1)))ˣ} {xs : Fin l → (ZMod N)ˣ} {r : Fin (l + l) → (ZMod N)ˣ} {v : BbSig G}
    {sk : CsPrivate} {pk : BbPublicKey} {bsk : BbPrivateKey}
    (hw : world params E ped cfg cfg' N s l base k y x₀ xs r = .ok (v, sk, pk, bsk)) :
    BbSetup gs h n N s (pkOf (gen N s x₀) fun i => pw (gen N s x₀) (xs i)).g
      (pkOf (gen N s x₀) fun i => pw (gen N s x₀) (xs i)).ys (List.ofFn fun i => drawn (xs i)) v sk ∧
    objectOf params E ped cfg N s l (base.point E) x₀ xs = .ok v ∧
    pk = cipherKey l (List.ofFn fun j : Fin (l + l) => encR (pw (gen N s x₀) (r j))
      (fun i => pw (pw (gen N s x₀) (xs i)) (r j))
      (if j.val < l then slot l j.val k.scalar else slot l (j.val - l) y.scalar)) ∧
    BN.ofBytes bsk.k = k.scalar ∧ BN.ofBytes bsk.y = y.scalar ∧
    ∃ wk wy drawK drawY, (∀ i < l, 0 ≤ drawK i ∧ Int.gcd (drawK i) N = 1) ∧
      (∀ i < l, 0 ≤ drawY i ∧ Int.gcd (drawY i) N = 1) ∧
      generateKeys v wk wy drawK drawY = .ok (pk, bsk) := by
  unfold world at hw
  rw [keys hN, Res.ok_bind] at hw
  simp only [Res.bind_eq_ok, Res.pure_eq, Res.ok.injEq, Prod.mk.injEq] at hw
  obtain ⟨sk', hsk, b, hb, v', hv, ⟨pk', bsk'⟩, hk, rfl, rfl, rfl, rfl⟩ := hw
  rw [(C129_draws E hE.out base).1] at hb
  cases hb
  set key := pkOf (gen N s x₀) fun i => pw (gen N s x₀) (xs i) with hkey
  obtain ⟨bb, p, cs, ev, hcs, hc⟩ := object_ok hv
  have hcp : Int.gcd (drawn x₀) ((N : Int) ^ (s + 1)) = 1 := by
    have := (drawn_ok x₀).2
    rwa [Nat.cast_pow] at this
  obtain ⟨pk₀, sk₀, e₀, -, -, -, hkp, -⟩ := C54_generated_keys N s hN (drawn x₀)
    (List.ofFn fun i => drawn (xs i)) hcp (by
      intro z hz
      obtain ⟨i, rfl⟩ := List.mem_ofFn.1 hz
      exact (drawn_ok _).1)
  rw [keys hN] at e₀
  simp only [Res.ok.injEq, Prod.mk.injEq] at e₀
  obtain ⟨rfl, rfl⟩ := e₀
  have eyl : key.ys.length = l := by rw [hkey]; simp [pkOf]
  have S : BbSetup gs h n N s key.g key.ys (List.ofFn fun i => drawn (xs i)) v' sk' := by
    subst ev
    exact ⟨hE.out, by exact_mod_cast hn, hgs, hh, hped, hN, hkp, by
      intro h0; rw [h0] at eyl; simp at eyl; omega, ⟨cfg, hcs⟩, ⟨cfg', hsk⟩, hc, by
      show params.chal ≤ 129000
      omega, hsec⟩
  have dK : ∀ i < l, 0 ≤ at_ r i ∧ Int.gcd (at_ r i) N = 1 := by
    intro i hi
    rw [at_lt r (by omega)]
    exact drawn_ok _
  have dY : ∀ i < l, 0 ≤ at_ r (l + i) ∧ Int.gcd (at_ r (l + i)) N = 1 := by
    intro i hi
    rw [at_lt r (by omega)]
    exact drawn_ok _
  have M := S.made
  obtain ⟨k', y', k1, k2, y1, y2, hg⟩ := M.generateKeys_ok k.val y.val
    (drawK := fun i => at_ r i) (drawY := fun i => at_ r (l + i))
    (by rw [eyl]; exact dK) (by rw [eyl]; exact dY)
  -- the keys
  have hks : k' = k.scalar ∧ y' = y.scalar := by
    have hg' := hg
    have hvg : v'.group = E := by rw [ev]
    unfold generateKeys at hg'
    simp only [Res.bind_eq_ok, Res.pure_eq, Res.ok.injEq, Prod.mk.injEq] at hg'
    obtain ⟨a, ha, b, hb, ab, hab, bb', hbb, cts, -, -, e⟩ := hg'
    rw [hvg, (C129_draws E hE.out k).2] at ha
    rw [hvg, (C129_draws E hE.out y).2] at hb
    cases ha
    cases hb
    have s0 : ∀ d : Draw E, 0 ≤ d.scalar := fun d => by unfold Draw.scalar; omega
    rw [toBytes_encB (s0 k)] at hab
    rw [toBytes_encB (s0 y)] at hbb
    cases hab
    cases hbb
    simp only [BbPrivateKey.mk.injEq] at e
    have e1 := congrArg BN.ofBytes e.1
    have e2 := congrArg BN.ofBytes e.2
    rw [ofBytes_encB (s0 _), ofBytes_encB (by omega)] at e1 e2
    exact ⟨e1.symm, e2.symm⟩
  obtain ⟨rfl, rfl⟩ := hks
  have hk' := hk
  rw [hg] at hk'
  simp only [Res.ok.injEq, Prod.mk.injEq] at hk'
  obtain ⟨rfl, rfl⟩ := hk'
  refine ⟨S, hv, ?_, ofBytes_encB (by omega), ofBytes_encB (by omega), _, _, _, _, dK, dY, hk⟩
  have P : Cs.PubGood cfg cs N s key.g key.ys := Cs.newPublic_good (by omega) hcs
  have enc : ∀ (ms : List Int) (hml : ms.length ≤ l) (hm0 : ∀ m ∈ ms, 0 ≤ m) (j : Fin (l + l)),
      encP ((N : Int) ^ (s + 1)) N key.g key.ys ms (drawn (r j)) =
      encR (pw (gen N s x₀) (r j)) (fun i => pw (pw (gen N s x₀) (xs i)) (r j)) ms := by
    intro ms hml hm0 j
    have e1 := encrypt_ok P (ms := ms) (by rw [eyl]; exact hml) hm0 (drawn_ok (r j)).1 (drawn_ok (r j)).2
    have e2 := enc_draw P hml hm0 (r j)
    rw [e1] at e2
    exact Res.ok.inj e2
  unfold cipherKey
  rw [BbPublicKey.mk.injEq]
  constructor
  · congr 1
    apply List.ext_getElem
    · simp [keyCts, eyl]
    · intro i h1 h2
      have hi : i < l := by simpa [keyCts, eyl] using h1
      simp only [keyCts, List.getElem_map, List.getElem_range, List.getElem_take, List.getElem_ofFn, eyl,
        at_lt r (show i < l + l by omega), if_pos hi]
      exact enc _ (slot_length _ _ _).le (slot_nonneg (by omega)) _
  · congr 1
    apply List.ext_getElem
    · simp [keyCts, eyl]
    · intro i h1 h2
      have hi : i < l := by simpa [keyCts, eyl] using h1
      simp only [keyCts, List.getElem_map, List.getElem_range, List.getElem_drop, List.getElem_ofFn, eyl,
        at_lt r (show l + i < l + l by omega), if_neg (show ¬ l + i < l by omega), Nat.add_sub_cancel_left]
      exact enc _ (slot_length _ _ _).le (slot_nonneg (by omega)) _

/-- The signer's public key. -/
def realKey (x₀ : (ZMod (N ^ (s + 1)))ˣ) (xs : Fin l → (ZMod N)ˣ) (r : Fin (l + l) → (ZMod N)ˣ)
    (k y : Draw E) : BbPublicKey :=
  cipherKey l (List.ofFn fun j : Fin (l + l) => encR (pw (gen N s x₀) (r j))
    (fun i => pw (pw (gen N s x₀) (xs i)) (r j))
    (if j.val < l then slot l j.val k.scalar else slot l (j.val - l) y.scalar))

/-- The requester forges after a simulated answer, in terms of the draws. -/
def Left (params : BbParams) (E : EcGroup G) (ped : Pedersen) (cfg : ExpCfg) (h : Int) (n N s l L : Nat)
    [NeZero N] (H : Hashes) (B : Bytes → Digest) (D : Finset Bytes) (R : Requester G C)
    (x : Setup E N s l L C) (t : AnsT params E.order n N L l × Digest × (D → Digest)) : Prop :=
  ∃ v, objectOf params E ped cfg N s l (x.1.point E) x.2.2.2.1 x.2.2.2.2.1 = .ok v ∧
    SimWins params E h n N l L H R v (realKey x.2.2.2.1 x.2.2.2.2.1 x.2.2.2.2.2.1 x.2.1 x.2.2.1)
      (x.1.point E) (x.2.1.scalar : ZMod E.order) (x.2.2.1.scalar : ZMod E.order) x.2.2.2.2.2.2.1
      x.2.2.2.2.2.2.2 t.1 t.2.1 (graft B D t.2.2)

open scoped Classical in
/-- Answers are simulated. -/
theorem inner {gs : List Int} (hn : 1 < n) (hgsU : ∀ c ∈ gs, Int.gcd c n = 1) (hh : Int.gcd h n = 1)
    (hped : ∃ k, 1 ≤ k ∧ k < 31 ∧ Ped.create gs h n k = .ok ped) (hN : 1 < N) (hl : 0 < l)
    (hchal : params.chal ≤ 511) (hsec : params.sec ≤ 2 ^ 28) (κ : Nat) (hκ : n ≤ κ * N)
    (hgs : ∀ c ∈ gs, ∃ k : Nat, c ≡ h ^ k [ZMOD n]) (Mh : Nat) (hMh0 : 0 < Mh)
    (hMh : h ^ Mh ≡ 1 [ZMOD n]) (hL : L ≤ gs.length) (hR : R.Fair E.order L)
    (hD : Covers params E ped cfg cfg' n N s l L H D R) (x : Setup E N s l L C) :
    prob (fun t : AnsT params E.order n N L l × (D → Digest) =>
      ∃ v sk pk bsk, worldOf params E ped cfg cfg' N s l L x = .ok (v, sk, pk, bsk) ∧
        Wins R H (graft B D t.2) v sk pk bsk (nonces x.2.2.2.2.2.2.1) (answerOf (answerVal t.1))
          x.2.2.2.2.2.2.2) ≤
      prob (Left params E ped cfg h n N s l L H B D R x) +
      (((2 * L + l + κ : Nat) : ℚ) / 2 ^ params.sec.toNat + L / E.order + (n % Mh : Nat) / n) := by
  by_cases hw : ∃ v sk pk bsk, worldOf params E ped cfg cfg' N s l L x = .ok (v, sk, pk, bsk)
  swap
  · have h0 : prob (fun t : AnsT params E.order n N L l × (D → Digest) =>
      ∃ v sk pk bsk, worldOf params E ped cfg cfg' N s l L x = .ok (v, sk, pk, bsk) ∧
        Wins R H (graft B D t.2) v sk pk bsk (nonces x.2.2.2.2.2.2.1) (answerOf (answerVal t.1))
          x.2.2.2.2.2.2.2) ≤ prob (fun _ : AnsT params E.order n N L l × (D → Digest) => False) :=
      prob_mono fun t ⟨v, sk, pk, bsk, hv, _⟩ => hw ⟨v, sk, pk, bsk, hv⟩
    have h1 : prob (fun _ : AnsT params E.order n N L l × (D → Digest) => False) = 0 := by
      simp [prob]
    have h2 := prob_nonneg (Left params E ped cfg h n N s l L H B D R x)
    have h3 : (0 : ℚ) ≤ ((2 * L + l + κ : Nat) : ℚ) / 2 ^ params.sec.toNat + L / E.order +
      (n % Mh : Nat) / n := by positivity
    rw [h1] at h0
    linarith
  obtain ⟨v, sk, pk, bsk, hv⟩ := hw
  obtain ⟨base, k, y, x₀, xs, r, ns, c⟩ := x
  dsimp only at hv ⊢
  obtain ⟨S, hobj, hpk, hbk, hby, hkeys⟩ := world_ok hn hgsU hh hped hN hl hchal hsec hv
  dsimp only at S hobj hpk hbk hby
  have M := S.made
  obtain ⟨bb, p, cs, ev, -, -⟩ := object_ok hobj
  subst ev
  obtain ⟨hml, hmr⟩ := hR ⟨{ params with baseG := bb, cs := p }, E, base.point E, cs, ped⟩ pk c
  have hrl : (nonces ns).length = L := by simp [nonces]
  have hrD : ∀ i : Fin L, (nonces ns).getD i 0 = ((ns i).val : Int) := by
    intro i
    rw [List.getD_eq_getElem _ _ (by simp [nonces])]
    simp [nonces]
  have eyl : (pkOf (gen N s x₀) fun i => pw (gen N s x₀) (xs i)).ys.length = l := by simp [pkOf]
  have Rn : ∀ cm om cr orr, 0 ≤ om → 0 ≤ orr → Ped.commitWithRand ped
      (R.messages ⟨{ params with baseG := bb, cs := p }, E, base.point E, cs, ped⟩ pk c) om = .ok cm →
      Ped.commitWithRand ped (nonces ns) orr = .ok cr →
      BbRun gs N (pkOf (gen N s x₀) fun i => pw (gen N s x₀) (xs i)).ys
        ⟨{ params with baseG := bb, cs := p }, E, base.point E, cs, ped⟩ pk bsk
        (R.messages ⟨{ params with baseG := bb, cs := p }, E, base.point E, cs, ped⟩ pk c)
        (nonces ns) cm om cr orr := by
    intro cm om cr orr h1 h2 h3 h4
    refine ⟨by rw [eyl]; exact hkeys, ⟨by omega, by omega⟩, hmr, ?_, ⟨h1, h2⟩, h3, h4⟩
    intro z hz
    obtain ⟨i, rfl⟩ := List.mem_ofFn.1 hz
    exact ⟨Int.natCast_nonneg _, by exact_mod_cast ZMod.val_lt _⟩
  -- signatures
  have hsig : ∀ m r' σ, IsBbSig ⟨{ params with baseG := bb, cs := p }, E, base.point E, cs, ped⟩
      (BN.ofBytes bsk.k) (BN.ofBytes bsk.y) m r' σ ↔
      bbSign E (base.point E) (k.scalar : ZMod E.order) (y.scalar : ZMod E.order) (m : ZMod E.order)
        (r' : ZMod E.order) = some σ := by
    intro m r' σ
    rw [hbk, hby]
    have : Fact (⟨{ params with baseG := bb, cs := p }, E, base.point E, cs, ped⟩ : BbSig G).group.Lawful :=
      hE
    exact C129_signature ⟨{ params with baseG := bb, cs := p }, E, base.point E, cs, ped⟩ base rfl
      k.scalar y.scalar m r' σ
  have key := exchange_close S (by
      intro z hz
      obtain ⟨i, rfl⟩ := List.mem_ofFn.1 hz
      show ((xs i : ZMod N).val : Int) < N
      exact_mod_cast ZMod.val_lt _) κ (by exact_mod_cast hκ) hchal
    (R.draws ⟨{ params with baseG := bb, cs := p }, E, base.point E, cs, ped⟩ pk c (nonces ns)) Rn hgs
    Mh hMh0 hMh
    (signatures E L (base.point E) (k.scalar : ZMod E.order) (y.scalar : ZMod E.order)
      (R.messages ⟨{ params with baseG := bb, cs := p }, E, base.point E, cs, ped⟩ pk c) ns)
    (by simp [signatures, hml]) (by
      intro i hi σ
      rw [hml] at hi
      rw [hsig, List.getD_eq_getElem (signatures E L (base.point E) _ _ _ ns) _ (by simpa [signatures] using hi)]
      simp only [signatures, List.getElem_ofFn]
      rw [hrD ⟨i, hi⟩]
      simp) H B D (n' := n) rfl hml eyl (hD _ _ _ _ _ hv)
    (fun ans O => Forgery ⟨{ params with baseG := bb, cs := p }, E, base.point E, cs, ped⟩ bsk
      (R.messages ⟨{ params with baseG := bb, cs := p }, E, base.point E, cs, ped⟩ pk c) (nonces ns)
      (R.out ⟨{ params with baseG := bb, cs := p }, E, base.point E, cs, ped⟩ pk c (nonces ns) ans O))
  change |prob (fun t : AnsT params E.order n N L l × (D → Digest) => _) -
    prob (fun t : AnsT params E.order n N L l × Digest × (D → Digest) => _)| ≤ _ at key
  refine sandwich key (prob_mono ?_) (prob_mono ?_)
  · rintro t ⟨v', sk', pk', bsk', hv', hw⟩
    have e := hv.symm.trans hv'
    simp only [Res.ok.injEq, Prod.mk.injEq] at e
    obtain ⟨rfl, rfl, rfl, rfl⟩ := e
    exact hw
  · rintro t ⟨hf, hnew⟩
    refine ⟨_, hobj, ?_⟩
    unfold realKey
    rw [← hpk]
    refine ⟨(hsig _ _ _).1 hf, fun i hi => hnew i (by rw [hml]; exact i.2) ?_⟩
    rw [hrD i, ← ZMod.intCast_eq_intCast_iff, ← ZMod.intCast_eq_intCast_iff]
    refine ⟨hi.1, ?_⟩
    exact (show (((ns i).val : Int) : ZMod E.order) = ns i by simp).trans hi.2

/-- The spy names vectors that can be encrypted. -/
theorem spy_fair : (spy params E ped cfg h n N l L H B D R).Fair l := by
  have s0 : ∀ d : Draw E, 0 ≤ d.scalar := fun d => by unfold Draw.scalar; omega
  intro key z sofar
  refine ⟨?_, by simp [spy], ?_⟩
  · simp only [spy]
    split
    · exact ⟨(slot_length _ _ _).le, slot_nonneg (s0 _)⟩
    · exact ⟨(slot_length _ _ _).le, slot_nonneg (s0 _)⟩
  · intro m hm
    simp only [spy] at hm
    rw [List.eq_of_mem_replicate hm]

/-- What the spy is shown. -/
theorem spy_run (key : CsPublicKey) (z : SpyCoins params E n N l L D C) {m : Nat}
    (f : Fin m → List Int × List Int → CsCt) :
    run ((spy params E ped cfg h n N l L H B D R).ask key z) (List.ofFn f) [] =
      List.ofFn fun i => f i (if i.val < l then slot l i z.2.1.scalar
        else slot l (i.val - l) z.2.2.1.scalar, List.replicate l 0) :=
  run_ofFn (fun j => (if j < l then slot l j z.2.1.scalar else slot l (j - l) z.2.2.1.scalar,
    List.replicate l 0)) f

/-- The draws of the game with the spy, ordered as in the session. -/
def toSpy : (Setup E N s l L C × AnsT params E.order n N L l × Digest × (D → Digest)) ≃
    ((ZMod (N ^ (s + 1)))ˣ × (Fin l → (ZMod N)ˣ) × (Fin (l + l) → (ZMod N)ˣ) ×
      SpyCoins params E n N l L D C) where
  toFun t := (t.1.2.2.2.1, t.1.2.2.2.2.1, t.1.2.2.2.2.2.1, t.1.1, t.1.2.1, t.1.2.2.1,
    t.1.2.2.2.2.2.2.1, t.1.2.2.2.2.2.2.2, t.2)
  invFun u := ((u.2.2.2.1, u.2.2.2.2.1, u.2.2.2.2.2.1, u.1, u.2.1, u.2.2.1, u.2.2.2.2.2.2.1,
    u.2.2.2.2.2.2.2.1), u.2.2.2.2.2.2.2.2)
  left_inv _ := rfl
  right_inv _ := rfl

/-- The draws of the game with the forger, ordered as in the game with the spy. -/
def toForger : ((ZMod (N ^ (s + 1)))ˣ × (Fin l → (ZMod N)ˣ) × (Fin (l + l) → (ZMod N)ˣ) ×
      SpyCoins params E n N l L D C) ≃
    (Draw E × Draw E × Draw E × (Fin L → ZMod E.order) × ForgerCoins params E n N s l L D C) where
  toFun u := (u.2.2.2.1, u.2.2.2.2.1, u.2.2.2.2.2.1, u.2.2.2.2.2.2.1, u.1, u.2.1, u.2.2.1,
    u.2.2.2.2.2.2.2.1, u.2.2.2.2.2.2.2.2)
  invFun w := (w.2.2.2.2.1, w.2.2.2.2.2.1, w.2.2.2.2.2.2.1, w.1, w.2.1, w.2.2.1, w.2.2.2.1,
    w.2.2.2.2.2.2.2.1, w.2.2.2.2.2.2.2.2)
  left_inv _ := rfl
  right_inv _ := rfl

open scoped Classical in
/-- With encryptions of the keys the spy plays the session with simulated answers. -/
theorem spy_left [Fintype C] (hN : 1 < N) (hodd : N % 2 = 1)
    (hco : ∀ i : Nat, 1 ≤ i → i ≤ s → Nat.Coprime i N) :
    prob (fun t : Setup E N s l L C × AnsT params E.order n N L l × Digest × (D → Digest) =>
      Left params E ped cfg h n N s l L H B D R t.1 t.2) =
    game cfg N s l (spy params E ped cfg h n N l L H B D R) (l + l) false := by
  unfold game
  rw [← prob_equiv toSpy]
  refine prob_congr fun t => ?_
  rw [view_draw (spy params E ped cfg h n N l L H B D R) cfg hN hodd hco spy_fair, spy_run]
  exact Iff.rfl

open scoped Classical in
/-- With encryptions of zeros the requester's success is a forgery. -/
theorem spy_right [Fintype C] (hN : 1 < N) (hodd : N % 2 = 1)
    (hco : ∀ i : Nat, 1 ≤ i → i ≤ s → Nat.Coprime i N) :
    game cfg N s l (spy params E ped cfg h n N l L H B D R) (l + l) true ≤
      forgeProb E L (forger params E ped cfg h n N s l L H B D R) := by
  unfold game forgeProb
  rw [← prob_equiv toForger]
  refine prob_mono fun u hu => ?_
  rw [view_draw (spy params E ped cfg h n N l L H B D R) cfg hN hodd hco spy_fair, spy_run] at hu
  obtain ⟨x₀, xs, r, base, k, y, ns, c, t, d, o⟩ := u
  obtain ⟨v, hv, hf, hnew⟩ := hu
  dsimp only [toForger, Equiv.coe_fn_mk] at hv hf hnew ⊢
  have hv' : objectOf params E ped cfg N s l (base.point E) x₀ xs = .ok v := hv
  have hs : BbForge.signed (forger params E ped cfg h n N s l L H B D R) (base.point E)
      (k.scalar : ZMod E.order) (y.scalar : ZMod E.order) ns (x₀, xs, r, c, t, d, o) =
      List.ofFn fun i : Fin L => (((R.messages v (zeroKey N s l x₀ xs r) c).getD i 0 : ZMod E.order), ns i,
        bbSign E (base.point E) (k.scalar : ZMod E.order) (y.scalar : ZMod E.order)
          ((R.messages v (zeroKey N s l x₀ xs r) c).getD i 0 : Int) (ns i)) := by
    unfold BbForge.signed
    rw [talk_fixed _ _ _ _ (fun i => ((R.messages v (zeroKey N s l x₀ xs r) c).getD i 0 : Int)) (by
      intro l'
      simp only [forger, hv'])]
    congr 1
    funext i
    simp [nth]
  have h1 : (BbForge.signed (forger params E ped cfg h n N s l L H B D R) (base.point E)
      (k.scalar : ZMod E.order) (y.scalar : ZMod E.order) ns (x₀, xs, r, c, t, d, o)).map Prod.snd =
      List.ofFn fun i : Fin L => (ns i, bbSign E (base.point E) (k.scalar : ZMod E.order)
        (y.scalar : ZMod E.order) ((R.messages v (zeroKey N s l x₀ xs r) c).getD i 0 : Int) (ns i)) := by
    rw [hs, List.map_ofFn]
    rfl
  have h2 : ((forger params E ped cfg h n N s l L H B D R).out (base.point E) (x₀, xs, r, c, t, d, o)
      (List.ofFn fun i : Fin L => (ns i, bbSign E (base.point E) (k.scalar : ZMod E.order)
        (y.scalar : ZMod E.order) ((R.messages v (zeroKey N s l x₀ xs r) c).getD i 0 : Int) (ns i)))) =
      (let o := guess params E h n N l L H R v (zeroKey N s l x₀ xs r) c (nonces ns)
        (signatures E L (base.point E) (k.scalar : ZMod E.order) (y.scalar : ZMod E.order)
          (R.messages v (zeroKey N s l x₀ xs r) c) ns) t d (graft B D o)
      ((o.1 : ZMod E.order), (o.2.1 : ZMod E.order), o.2.2)) := by
    simp only [forger, hv', List.map_ofFn]
    rfl
  unfold Forges
  simp only [h1, h2]
  refine ⟨hf, ?_⟩
  rw [hs]
  intro e he
  obtain ⟨i, rfl⟩ := List.mem_ofFn.1 he
  exact hnew i

/-- There are coins. -/
theorem coins_nonempty (hn : 1 < n) [Nonempty C] : Nonempty (SpyCoins params E n N l L D C) := by
  have : Fact (0 < n) := ⟨by omega⟩
  have : NeZero n := ⟨by omega⟩
  have hp : ∀ i, 0 < maskBounds params E.order N L l i := by
    have hq := Nat.pos_of_neZero E.order
    have hN := Nat.pos_of_neZero N
    rintro (i | i) <;> simp only [maskBounds] <;> positivity
  have : Nonempty ((i : RespMask L l) → Fin (maskBounds params E.order N L l i)) :=
    ⟨fun i => ⟨0, hp i⟩⟩
  have : Nonempty (AnsT params E.order n N L l) := inferInstance
  infer_instance

open scoped Classical in
/-- C134: a requester that obtains signatures through the protocol and wins with a new one can be turned
into algorithms for strong Diffie-Hellman, decisional Diffie-Hellman and decisional composite residuosity
whose chances add up to the requester's, up to the distance of the simulated answer. -/
theorem C134_unforgeable {gs : List Int} (hn : 1 < n) (hgsU : ∀ c ∈ gs, Int.gcd c n = 1)
    (hh : Int.gcd h n = 1) (hped : ∃ k, 1 ≤ k ∧ k < 31 ∧ Ped.create gs h n k = .ok ped)
    (hN : 1 < N) (hodd : N % 2 = 1) (hco : ∀ i : Nat, 1 ≤ i → i ≤ s → Nat.Coprime i N) (hl : 0 < l)
    (hchal : params.chal ≤ 511) (hsec : params.sec ≤ 2 ^ 28) (κ : Nat) (hκ : n ≤ κ * N)
    (hgs : ∀ c ∈ gs, ∃ k : Nat, c ≡ h ^ k [ZMOD n]) (Mh : Nat) (hMh0 : 0 < Mh)
    (hMh : h ^ Mh ≡ 1 [ZMOD n]) (hL : L ≤ gs.length) [Fintype C] [Nonempty C] (hR : R.Fair E.order L)
    (hD : Covers params E ped cfg cfg' n N s l L H D R) :
    sessionProb params E ped cfg cfg' n N s l L H B D R ≤
      sdhProb E (L + 1) (newValue E (N := L) (forger params E ped cfg h n N s l L H B D R)) +
      sdhProb E (L + 1) (oldValue E (N := L) (forger params E ped cfg h n N s l L H B D R)) +
      ∑ j : Fin (l + l), ∑ k : Fin l,
        (|dhAdv N s (dhAlg (L := l) (spy params E ped cfg h n N l L H B D R) false j k)| +
          |dcrAdv N s (dcrAlg (L := l) (spy params E ped cfg h n N l L H B D R) false j k)| +
          (|dhAdv N s (dhAlg (L := l) (spy params E ped cfg h n N l L H B D R) true j k)| +
          |dcrAdv N s (dcrAlg (L := l) (spy params E ped cfg h n N l L H B D R) true j k)|)) +
      (((2 * L + l + κ : Nat) : ℚ) / 2 ^ params.sec.toNat + L / E.order + (n % Mh : Nat) / n) := by
  have h1 := prob_prod_le _ _ fun x => inner (H := H) (B := B) (cfg := cfg) (cfg' := cfg') hn hgsU hh hped hN hl hchal hsec κ hκ hgs Mh hMh0 hMh hL hR hD x
  rw [spy_left hN hodd hco] at h1
  have := coins_nonempty (params := params) (E := E) (N := N) (l := l) (L := L) (D := D) (C := C) hn
  have h2 := C121_hides (spy params E ped cfg h n N l L H B D R) cfg hN hodd hco spy_fair (l + l)
  have h3 := spy_right (params := params) (E := E) (ped := ped) (cfg := cfg) (h := h) (n := n) (l := l)
    (L := L) (H := H) (B := B) (D := D) (R := R) hN hodd hco
  have h4 := C129_unforgeable E L (forger params E ped cfg h n N s l L H B D R)
  have h5 := (abs_le.1 h2).2
  unfold sessionProb
  linarith

/-- Some finite set contains the strings that the signer hashes. -/
theorem C134_covers {gs : List Int} (hn : 1 < n) (hgsU : ∀ c ∈ gs, Int.gcd c n = 1)
    (hh : Int.gcd h n = 1) (hped : ∃ k, 1 ≤ k ∧ k < 31 ∧ Ped.create gs h n k = .ok ped)
    (hN : 1 < N) (hl : 0 < l) (hchal : params.chal ≤ 511) (hsec : params.sec ≤ 2 ^ 28)
    (hL : L ≤ gs.length) [Fintype C] (hR : R.Fair E.order L) :
    ∃ D, Covers params E ped cfg cfg' n N s l L H D R := by
  classical
  have one : ∀ x : Setup E N s l L C, ∃ D : Finset Bytes, ∀ v sk pk bsk,
      worldOf params E ped cfg cfg' N s l L x = .ok (v, sk, pk, bsk) →
      ∀ (t : AnsT params E.order n N L l) O cm cr req st,
      requested (withSha512 H O) v pk (R.messages v pk x.2.2.2.2.2.2.2) (nonces x.2.2.2.2.2.2.1)
        (R.draws v pk x.2.2.2.2.2.2.2 (nonces x.2.2.2.2.2.2.1)) = .ok (cm, cr, req, st) →
      ∀ z, hashedAnswer v pk cm cr req (generateResponse (withSha512 H O) v sk req pk cm cr
        (answerOf (answerVal t))) = some z → z ∈ D := by
    intro x
    by_cases hw : ∃ v sk pk bsk, worldOf params E ped cfg cfg' N s l L x = .ok (v, sk, pk, bsk)
    swap
    · exact ⟨∅, fun v sk pk bsk hv => absurd ⟨v, sk, pk, bsk, hv⟩ hw⟩
    obtain ⟨v, sk, pk, bsk, hv⟩ := hw
    obtain ⟨base, k, y, x₀, xs, r, ns, c⟩ := x
    dsimp only at hv ⊢
    obtain ⟨S, hobj, hpk, hbk, hby, hkeys⟩ := world_ok hn hgsU hh hped hN hl hchal hsec hv
    dsimp only at S hobj hpk hbk hby
    obtain ⟨bb, p, cs, ev, -, -⟩ := object_ok hobj
    have hvE : v.group = E := by rw [ev]
    have hvc : v.params.chal = params.chal := by rw [ev]
    obtain ⟨hml, hmr⟩ := hR v pk c
    have eyl : (pkOf (gen N s x₀) fun i => pw (gen N s x₀) (xs i)).ys.length = l := by simp [pkOf]
    have Rn : ∀ cm om cr orr, 0 ≤ om → 0 ≤ orr → Ped.commitWithRand v.ped
        (R.messages v pk c) om = .ok cm → Ped.commitWithRand v.ped (nonces ns) orr = .ok cr →
        BbRun gs N (pkOf (gen N s x₀) fun i => pw (gen N s x₀) (xs i)).ys v pk bsk
          (R.messages v pk c) (nonces ns) cm om cr orr := by
      intro cm om cr orr h1 h2 h3 h4
      have hrl : (nonces ns).length = L := by simp [nonces]
      refine ⟨by rw [eyl]; exact hkeys, ⟨by omega, by omega⟩, by rw [hvE]; exact hmr, ?_, ⟨h1, h2⟩,
        h3, h4⟩
      intro z hz
      rw [hvE]
      obtain ⟨i, rfl⟩ := List.mem_ofFn.1 hz
      exact ⟨Int.natCast_nonneg _, by exact_mod_cast ZMod.val_lt _⟩
    have hreq := fun O => requested_hash S (R.draws v pk c (nonces ns)) Rn (withSha512 H O)
      (withSha512 H fun _ _ => 0)
    by_cases ha : ∃ cm cr req st, requested (withSha512 H fun _ _ => 0) v pk (R.messages v pk c)
      (nonces ns) (R.draws v pk c (nonces ns)) = .ok (cm, cr, req, st)
    swap
    · refine ⟨∅, fun v' sk' pk' bsk' hv' t O cm cr req st e => ?_⟩
      have e' := hv.symm.trans hv'
      simp only [Res.ok.injEq, Prod.mk.injEq] at e'
      obtain ⟨rfl, rfl, rfl, rfl⟩ := e'
      rw [hreq O] at e
      exact absurd ⟨cm, cr, req, st, e⟩ ha
    obtain ⟨cm, cr, req, st, ha⟩ := ha
    obtain ⟨om, orr, π, o1, o2, o3, o4, hg⟩ := requested_ok S ha
    obtain ⟨D, hD⟩ := C133_covers S (by rw [hvc]; exact hchal) (Rn _ _ _ _ o1 o2 o3 o4) hg H
      (fun t : AnsT params E.order n N L l => answerOf (answerVal t))
    refine ⟨D, fun v' sk' pk' bsk' hv' t O cm' cr' req' st' e => ?_⟩
    have e' := hv.symm.trans hv'
    simp only [Res.ok.injEq, Prod.mk.injEq] at e'
    obtain ⟨rfl, rfl, rfl, rfl⟩ := e'
    rw [hreq O, ha] at e
    simp only [Res.ok.injEq, Prod.mk.injEq] at e
    obtain ⟨rfl, rfl, rfl, rfl⟩ := e
    exact hD t O
  choose D hD using one
  refine ⟨Finset.univ.biUnion D, fun x v sk pk bsk hv t O cm cr req st e z hz => ?_⟩
  exact Finset.mem_biUnion.2 ⟨x, Finset.mem_univ _, hD x v sk pk bsk hv t O cm cr req st e z hz⟩

end

/-! ### The hypotheses can be met -/

/-- A requester that asks for three signatures and guesses. -/
def toyRequester : Requester (ZMod 11) Unit where
  messages _ _ _ := [1, 2, 10]
  draws _ _ _ _ := (55, 66,
    { a := fun i => i + 2, b := fun _ => 5, enc := fun i => i + 2
      openA := fun _ => 4, openB := 4, openAlphas := 4, openGammas := 4
      messages := fun _ => 0, rs := fun _ => 0, as := fun _ => 0, asOpen := fun _ => 0
      bs := fun _ => 0, alphas := fun _ => 0, gammas := fun _ => 0, messagesOpen := 0, rsOpen := 0
      bsOpen := 0, alphasOpen1 := 0, alphasOpen2 := 0, gammasOpen1 := 0, gammasOpen2 := 0
      dummyEnc := fun _ => 0 })
  out _ _ _ _ _ _ := (5, 5, 1)

/-- The set-up of the requester's session, and what is drawn. -/
def toySetup : Setup toyEc 253 2 2 3 Unit :=
  (⟨0, by decide⟩, ⟨4, by decide⟩, ⟨6, by decide⟩, ZMod.unitOfCoprime 2 (by decide),
    fun i => if i = 0 then ZMod.unitOfCoprime 3 (by decide) else ZMod.unitOfCoprime 9 (by decide),
    fun i => if i = 0 then ZMod.unitOfCoprime 2 (by decide) else ZMod.unitOfCoprime 7 (by decide),
    fun i => if i = 0 then (3 : ZMod 11) else if i = 1 then (0 : ZMod 11) else (9 : ZMod 11), ())

def toyWorld : Res (Int × Int × ZMod 11) := do
  let ped ← Ped.create toyViewGs 4 59701 2
  let a ← worldOf toyViewParams toyEc ped ⟨false, 3⟩ ⟨true, 2⟩ 253 2 2 3 toySetup
  return (BN.ofBytes a.2.2.2.k, BN.ofBytes a.2.2.2.y, a.1.base)

theorem toyWorld_ok : toyWorld = .ok (5, 7, 1) := by decide +kernel

instance : Fact toyEc.Lawful := ⟨toyEc_lawful⟩

/-- The hypotheses of `C134_unforgeable` hold for a requester that wins with positive probability. -/
theorem C134_reached (H : Hashes) (B : Bytes → Digest) : ∃ (ped : Pedersen) (D : Finset Bytes),
    Ped.create toyViewGs 4 (59701 : Nat) 2 = .ok ped ∧ (∀ c ∈ toyViewGs, Int.gcd c (59701 : Nat) = 1) ∧
    Int.gcd 4 (59701 : Nat) = 1 ∧ (∀ i : Nat, 1 ≤ i → i ≤ 2 → Nat.Coprime i 253) ∧
    59701 ≤ 236 * 253 ∧ (∀ c ∈ toyViewGs, ∃ k : Nat, c ≡ 4 ^ k [ZMOD (59701 : Nat)]) ∧
    (4 : Int) ^ 14803 ≡ 1 [ZMOD (59701 : Nat)] ∧ toyRequester.Fair toyEc.order 3 ∧
    Covers toyViewParams toyEc ped ⟨false, 3⟩ ⟨true, 2⟩ 59701 253 2 2 3 H D toyRequester ∧
    0 < sessionProb toyViewParams toyEc ped ⟨false, 3⟩ ⟨true, 2⟩ 59701 253 2 2 3 H B D toyRequester := by
  classical
  have hr := toyWorld_ok
  unfold toyWorld at hr
  simp only [Res.bind_eq_ok, Res.pure_eq, Res.ok.injEq, Prod.mk.injEq] at hr
  obtain ⟨ped, hped, ⟨v, sk, pk, bsk⟩, hw, k5, y7, b1⟩ := hr
  dsimp only at k5 y7 b1
  have hgsU : ∀ c ∈ toyViewGs, Int.gcd c (59701 : Nat) = 1 := by decide
  have hfair : toyRequester.Fair toyEc.order 3 := fun _ _ _ => by
    refine ⟨rfl, ?_⟩
    show ∀ m ∈ ([1, 2, 10] : List Int), 0 ≤ m ∧ m < ((11 : Nat) : Int)
    decide
  have hped' : ∃ k, 1 ≤ k ∧ k < 31 ∧ Ped.create toyViewGs 4 (59701 : Nat) k = .ok ped :=
    ⟨2, by decide, by decide, hped⟩
  obtain ⟨D, hD⟩ := C134_covers (params := toyViewParams) (E := toyEc) (ped := ped)
    (cfg := ⟨false, 3⟩) (cfg' := ⟨true, 2⟩) (h := 4) (n := 59701) (N := 253) (s := 2) (l := 2) (L := 3)
    (H := H) (R := toyRequester) (by decide) hgsU (by decide) hped' (by decide) (by decide)
    (by decide) (by decide) (by decide) hfair
  refine ⟨ped, D, hped, hgsU, by decide, by
    intro i h1 h2
    interval_cases i <;> decide, by decide, ?_, by decide +kernel, hfair, hD, ?_⟩
  · intro c hc
    fin_cases hc
    · exact ⟨2, by decide⟩
    · exact ⟨3, by decide⟩
    · exact ⟨4, by decide⟩
  -- the requester wins
  have hv : v.group = toyEc := by
    obtain ⟨-, ho, -⟩ := world_ok (h := 4) (n := 59701) (by decide) hgsU (by decide) hped' (by decide)
      (by decide) (by decide) (by decide) hw
    obtain ⟨_, _, _, e, -⟩ := object_ok ho
    rw [e]
  have hp : ∀ i, 0 < maskBounds toyViewParams toyEc.order 253 3 2 i := by
    rintro (i | i) <;> simp only [maskBounds] <;> decide
  let t : Setup toyEc 253 2 2 3 Unit × AnsT toyViewParams toyEc.order 59701 253 3 2 × (D → Digest) :=
    (toySetup, (fun _ => ⟨0, by decide⟩, fun i => ⟨0, hp i⟩), fun _ _ => 0)
  have win : Wins toyRequester H (graft B D t.2.2) v sk pk bsk (nonces t.1.2.2.2.2.2.2.1)
      (answerOf (answerVal t.2.1)) () := by
    refine ⟨?_, ?_⟩
    · rw [k5, y7]
      refine ⟨1, ?_, ?_⟩
      · rw [hv]
        show (1 : Int) * (5 + 5 + 7 * 5) ≡ 1 [ZMOD 11]
        decide
      · rw [b1]
        show (1 : ZMod 11) = (1 : Int) • 1
        decide
    · rw [hv]
      show ∀ i < 3, _
      intro i hi h2
      have h3 := h2.1
      change ([1, 2, 10] : List Int).getD i 0 ≡ 5 [ZMOD 11] at h3
      interval_cases i <;> revert h3 <;> decide
  unfold sessionProb
  exact prob_pos t ⟨v, sk, pk, bsk, hw, win⟩

end PJC.BbSession
