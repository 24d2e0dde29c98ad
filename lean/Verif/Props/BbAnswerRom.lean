import Verif.Lemmas.Resample
import Verif.Props.BbAnswer
import Verif.Props.RomSound
set_option linter.unusedSectionVars false
/-
C133 when SHA-512 is a random function: an answer of the signer, with the random function, is
distributed like a simulated answer and the random function with the value at the string that is hashed
for the simulated answer set to the digest that the simulation has used.
-/
namespace PJC.RomSound
open PJC.Bb PJC.DJ PJC.Oracle PJC.Prob PJC.Props PJC.Stat

variable {G : Type} [AddCommGroup G] [DecidableEq G]

/-- Specification: the string that is hashed when an answer is verified; none if there is none. -/
def hashedAnswer (v : BbSig G) (pk : BbPublicKey) (cm cr : Int) (req : BbRequest) :
    Res (List Bytes × BbRespProof) → Option Bytes
  | .ok a => match respFirst v a.1 a.2 req with
    | .ok m => some (block (hashed v pk cm cr req a.1 a.2 m))
    | _ => none
  | _ => none

/-- Specification: the function `O` with the value at one string replaced. -/
def program (O : Bytes → Digest) (x : Option Bytes) (y : Digest) : Bytes → Digest :=
  match x with
  | some x => Function.update O x y
  | none => O

/-- Draws below bounds, as numbers. -/
def answerVal {k L n : Nat} {B : RespMask k L → Nat}
    (t : (Fin 1 → Fin n) × ((i : RespMask k L) → Fin (B i))) : AnswerDraws k L :=
  (fun i => (t.1 i).val, fun i => (t.2 i).val)

/-- Close experiments, as a difference of probabilities. -/
theorem close_prob {ι₁ ι₂ β : Type} [Fintype ι₁] [DecidableEq ι₁] [Fintype ι₂] [DecidableEq ι₂]
    {B₁ : ι₁ → Nat} {B₂ : ι₂ → Nat} {f g : (ι₁ → Nat) × (ι₂ → Nat) → β} {ε : ℚ}
    (h : Close (Box B₁ ×ˢ Box B₂) f g ε) (h1 : ∀ i, 0 < B₁ i) (h2 : ∀ i, 0 < B₂ i)
    (S : β → Prop) [DecidablePred S] :
    |prob (fun t : ((i : ι₁) → Fin (B₁ i)) × ((i : ι₂) → Fin (B₂ i)) =>
        S (f (fun i => (t.1 i).val, fun i => (t.2 i).val))) -
      prob (fun t : ((i : ι₁) → Fin (B₁ i)) × ((i : ι₂) → Fin (B₂ i)) =>
        S (g (fun i => (t.1 i).val, fun i => (t.2 i).val)))| ≤ ε := by
  have hc := h S
  let val : ((i : ι₁) → Fin (B₁ i)) × ((i : ι₂) → Fin (B₂ i)) → (ι₁ → Nat) × (ι₂ → Nat) :=
    fun t => (fun i => (t.1 i).val, fun i => (t.2 i).val)
  have inj : Function.Injective val := by
    intro a b hab
    refine Prod.ext ?_ ?_
    · funext i
      exact Fin.ext (congrFun (congrArg Prod.fst hab) i)
    · funext i
      exact Fin.ext (congrFun (congrArg Prod.snd hab) i)
  have card : ∀ (T : (ι₁ → Nat) × (ι₂ → Nat) → Prop) [DecidablePred T],
      (Finset.univ.filter fun a => T (val a)).card = ((Box B₁ ×ˢ Box B₂).filter T).card := by
    intro T _
    refine Finset.card_nbij val ?_ inj.injOn ?_
    · intro a ha
      have ha := (Finset.mem_filter.1 (Finset.mem_coe.1 ha)).2
      exact Finset.mem_coe.2 (Finset.mem_filter.2 ⟨Finset.mem_product.2
        ⟨mem_box.2 fun i => (a.1 i).isLt, mem_box.2 fun i => (a.2 i).isLt⟩, ha⟩)
    · intro a ha
      have ha := Finset.mem_filter.1 (Finset.mem_coe.1 ha)
      have hm := Finset.mem_product.1 ha.1
      exact ⟨(fun i => ⟨a.1 i, mem_box.1 hm.1 i⟩, fun i => ⟨a.2 i, mem_box.1 hm.2 i⟩),
        Finset.mem_coe.2 (Finset.mem_filter.2 ⟨Finset.mem_univ _, ha.2⟩), rfl⟩
  have tot : (Fintype.card (((i : ι₁) → Fin (B₁ i)) × ((i : ι₂) → Fin (B₂ i))) : ℚ) =
      ((Box B₁ ×ˢ Box B₂).card : ℚ) := by
    have := card fun _ => True
    simp only [Finset.filter_true] at this
    rw [← this, Finset.card_univ]
  have pos : (0 : ℚ) < ((Box B₁ ×ˢ Box B₂).card : ℚ) := by
    have : (Box B₁ ×ˢ Box B₂).Nonempty :=
      ⟨(fun _ => 0, fun _ => 0), Finset.mem_product.2 ⟨mem_box.2 h1, mem_box.2 h2⟩⟩
    exact_mod_cast this.card_pos
  have e1 := card fun a => S (f a)
  have e2 := card fun a => S (g a)
  unfold Prob.prob
  rw [tot, ← sub_div, abs_div, abs_of_pos pos, div_le_iff₀ pos]
  simp only [val] at e1 e2
  rw [e1, e2]
  exact hc

/-- Two steps: a value `y` is drawn afresh, and then an experiment is replaced for each `y`. -/
theorem resampled_close {T Y O : Type} [Fintype T] [Fintype Y] [Fintype O] (real : T → O → Prop)
    (mid sim : T → Y → O → Prop) [∀ t o, Decidable (real t o)] [∀ t y o, Decidable (mid t y o)]
    [∀ t y o, Decidable (sim t y o)] {ε : ℚ} (hε : 0 ≤ ε)
    (hreal : ∀ t, prob (real t) = prob fun o : Y × O => mid t o.1 o.2)
    (hsim : ∀ y o, |prob (fun t => mid t y o) - prob (fun t => sim t y o)| ≤ ε) :
    |prob (fun t : T × O => real t.1 t.2) - prob (fun t : T × Y × O => sim t.1 t.2.1 t.2.2)| ≤ ε := by
  have h1 : prob (fun t : T × O => real t.1 t.2) = prob (fun t : T × Y × O => mid t.1 t.2.1 t.2.2) := by
    rw [prob_prod real, prob_prod (fun (t : T) (o : Y × O) => mid t o.1 o.2)]
    simp only [hreal]
  rw [h1, prob_comm (fun (t : T) (o : Y × O) => mid t o.1 o.2),
    prob_comm (fun (t : T) (o : Y × O) => sim t o.1 o.2)]
  exact prob_prod_close (S := fun (o : Y × O) t => mid t o.1 o.2)
    (T := fun (o : Y × O) t => sim t o.1 o.2) hε fun o => hsim o.1 o.2

/-- What comes before the challenge of a response does not depend on the hash function. -/
theorem response_factor (v : BbSig G) (sk : CsPrivate) (req : BbRequest) (pk : BbPublicKey)
    (cm cr : Int) (d : RespDraws) :
    ∃ (α : Type) (pre : Res α) (resp : α → List Bytes) (cb : α → Int) (m : α → BbRespMessage1)
      (post : α → Int → Res (List Bytes × BbRespProof)), (∀ H,
      generateResponse H v sk req pk cm cr d =
        pre >>= fun a => responseChallenge H v pk cm cr req (resp a) (cb a) (m a) >>= post a) ∧
      ∀ a c r, post a c = .ok r → 0 ≤ c → BN.ofBytes r.2.challenge = c := by
  by_cases h0 : req.num > v.ped.gs.length
  · exact ⟨Unit, .err .invalidArgument, fun _ => [], fun _ => 0, fun _ => ⟨[], [], [], []⟩,
      fun _ _ => .err .invalidArgument, fun H => by
        unfold generateResponse; rw [if_pos h0]; rfl, fun _ _ _ h => by cases h⟩
  cases hd : req.cts.mapM (decryptOne v sk) with
  | err e => exact ⟨Unit, .err e, fun _ => [], fun _ => 0, fun _ => ⟨[], [], [], []⟩,
      fun _ _ => .err .invalidArgument, fun H => by
        unfold generateResponse; rw [if_neg h0, hd]; rfl, fun _ _ _ h => by cases h⟩
  | crash => exact ⟨Unit, .crash, fun _ => [], fun _ => 0, fun _ => ⟨[], [], [], []⟩,
      fun _ _ => .err .invalidArgument, fun H => by
        unfold generateResponse; rw [if_neg h0, hd]; rfl, fun _ _ _ h => by cases h⟩
  | ub => exact ⟨Unit, .ub, fun _ => [], fun _ => 0, fun _ => ⟨[], [], [], []⟩,
      fun _ _ => .err .invalidArgument, fun H => by
        unfold generateResponse; rw [if_neg h0, hd]; rfl, fun _ _ _ h => by cases h⟩
  | ok dec =>
  by_cases h1 : (dec.map Prod.snd).flatten.length < req.num
  · exact ⟨Unit, .ub, fun _ => [], fun _ => 0, fun _ => ⟨[], [], [], []⟩,
      fun _ _ => .err .invalidArgument, fun H => by
        unfold generateResponse; rw [if_neg h0, hd, Res.ok_bind, if_pos h1]; rfl, fun _ _ _ h => by cases h⟩
  let betas := (dec.map Prod.snd).flatten.take req.num
  refine ⟨(List Bytes × (Int × Int) × Bytes × List Int × List Int × Int × BbRespMessage1), (do
      let sigs ← betas.mapM (signOne v)
      let response ← ecPointVectorToProto v.group sigs
      let cb ← Ped.commit v.ped betas d.openBetas
      let cbBytes ← BN.toBytes cb.1
      let bound ← betasBound v.group (2 * v.params.chal + 2 * v.params.sec)
      let dBetas ← drawList req.num bound d.betas
      let xBound ← lshift64 v.cs.n (v.params.chal + v.params.sec)
      let dXs ← drawList v.cs.len xBound d.xs
      let dOpening ← Ctx.randLessThan d.opening xBound
      let dCommit ← Ped.commitWithRand v.ped dBetas dOpening
      let dYs ← dXs.mapM (fun x => BN.modExp sk.pub.g x sk.pub.modulus)
      let m1Ys ← bigNumVectorToProto dYs
      let m1Commit ← BN.toBytes dCommit
      let m1Gs ← ecPointVectorToProto v.group (List.zipWith (· • ·) dBetas sigs)
      let m1Es ← (List.range req.cts.length).mapM (dummyEs v sk req.num (dec.map Prod.fst) dBetas dXs)
      return (response, cb, cbBytes, dBetas, dXs, dOpening, ⟨m1Ys, m1Commit, m1Gs, m1Es⟩)),
    fun a => a.1, fun a => a.2.1.1, fun a => a.2.2.2.2.2.2, (fun a c => do
      let challenge ← BN.toBytes c
      let mBetas ← bigNumVectorToProto (List.zipWith (fun d b => d + b * c) a.2.2.2.1 betas)
      let mXs ← (List.range v.cs.len).mapM (maskX c a.2.2.2.2.1 sk.xs)
      let mXsBytes ← bigNumVectorToProto mXs
      let mOpening ← BN.toBytes (a.2.2.2.2.2.1 + a.2.1.2 * c)
      return (a.1, ⟨a.2.2.1, challenge, mXsBytes, mBetas, mOpening⟩)), fun H => ?_, ?_⟩
  swap
  · intro a c r hr hc
    simp only [Res.bind_eq_ok, Res.pure_eq, Res.ok.injEq] at hr
    obtain ⟨ch, hch, _, -, _, -, _, -, _, -, rfl⟩ := hr
    rw [BN.toBytes_of_nonneg hc, Res.ok.injEq] at hch
    subst hch
    rw [BN.ofBytes_natToBytes]
    omega
  unfold generateResponse
  rw [if_neg h0, hd, Res.ok_bind]
  dsimp only
  rw [if_neg h1]
  simp only [Res.bind_assoc, Res.pure_eq, Res.ok_bind]
  rfl

variable {gs : List Int} {h n : Int} {N s : Nat} {g : Int} {ys xs : List Int} {v : BbSig G}
  {sk : CsPrivate}

/-- Challenges differ for some digests. -/
theorem exists_other {c : Nat} (h1 : 1 ≤ c) (h2 : c ≤ 511) (y : Digest) :
    ∃ z : Digest, chalOf c z ≠ chalOf c y := by
  by_contra hcon
  push Not at hcon
  have h := prob_chal h2 (fun _ : Digest => True) (fun d d' _ _ => by rw [hcon d, hcon d'])
  rw [prob_eq_one fun _ => trivial] at h
  have : (2 : ℚ) ≤ 2 ^ c := by
    calc (2 : ℚ) = 2 ^ 1 := by norm_num
      _ ≤ 2 ^ c := pow_le_pow_right₀ (by norm_num) h1
  rw [le_div_iff₀ (by positivity)] at h
  linarith

/-- An answer to an honest request hashes one string, which does not depend on the hash function, and
which is the one that verification hashes. -/
theorem answer_run (S : BbSetup gs h n N s g ys xs v sk) (hchal : v.params.chal ≤ 511)
    {pk : BbPublicKey} {bsk : BbPrivateKey} {ms rs : List Int} {cm om cr orr : Int}
    (R : BbRun gs N ys v pk bsk ms rs cm om cr orr) {H₀ : Hashes} {d : ReqDraws} {req : BbRequest}
    {π : BbReqProof} {st : List Bytes}
    (hreq : generateRequest H₀ v ms rs pk cm om cr orr d = .ok (req, π, st)) (H : Hashes)
    (d' : RespDraws) :
    (∃ e, ∀ O, generateResponse (withSha512 H O) v sk req pk cm cr d' = .err e) ∨
    ∃ x, (∀ O O', O x = O' x → generateResponse (withSha512 H O) v sk req pk cm cr d' =
        generateResponse (withSha512 H O') v sk req pk cm cr d') ∧
      ∀ O, hashedAnswer v pk cm cr req (generateResponse (withSha512 H O) v sk req pk cm cr d') =
          some x ∧
        ∀ resp π', generateResponse (withSha512 H O) v sk req pk cm cr d' = .ok (resp, π') →
          BN.ofBytes π'.challenge = (chalOf v.params.chal.toNat (O x) : Nat) := by
  have M := S.made
  have h1 : 1 ≤ v.params.chal := by
    have := M.chal0
    omega
  obtain ⟨req', π', st', w, cts, k, y, -, -, -, -, hn, henc, hgen, -, hcm, hcr⟩ := bb_run S R H₀ d
  have hreq' := hreq
  rw [hgen] at hreq'
  split at hreq'
  swap
  · cases hreq'
  rename_i hu
  simp only [Res.ok.injEq, Prod.mk.injEq] at hreq'
  obtain ⟨rfl, rfl, rfl⟩ := hreq'
  have hshape : req'.cts.length = numCts req'.num ys.length := by
    have := henc hu
    rw [this.proto, List.length_map, this.len]
  have out := fun O => C62_response gs h n N s g ys xs v sk S pk bsk ms rs cm om cr orr R H₀
    (withSha512 H O) d req' π' st' hreq d'
  by_cases hdef : ∃ i < ms.length, ms.getD i 0 + BN.ofBytes bsk.k + BN.ofBytes bsk.y * rs.getD i 0 ≡ 0
      [ZMOD v.group.order]
  · left
    refine ⟨.invalidArgument, fun O => ?_⟩
    rcases out O with ⟨h, -⟩ | ⟨h, -⟩
    · exact h
    · obtain ⟨i, hi, h'⟩ := hdef
      exact absurd h' (h i hi)
  by_cases hdum : ∃ b ∈ responseDummies v ms.length d', (v.group.order : Int) ∣ b
  · left
    refine ⟨.internal, fun O => ?_⟩
    rcases out O with ⟨-, h⟩ | ⟨-, ⟨h, -⟩ | ⟨h, -⟩⟩
    · exact absurd h hdef
    · exact h
    · obtain ⟨b, hb, h'⟩ := hdum
      exact absurd h' (h b hb)
  right
  have good : ∀ O, ∃ resp π', generateResponse (withSha512 H O) v sk req' pk cm cr d' = .ok (resp, π') ∧
      verifyResponse (withSha512 H O) v pk resp π' req' cm cr = .ok () := by
    intro O
    rcases out O with ⟨-, h⟩ | ⟨-, ⟨-, h⟩ | ⟨-, h⟩⟩
    · exact absurd h hdef
    · exact absurd h hdum
    · exact h
  obtain ⟨α, pre, fr, fb, fm, post, hfac, hpost⟩ := response_factor v sk req' pk cm cr d'
  obtain ⟨a, ha⟩ : ∃ a, pre = .ok a := by
    obtain ⟨resp, p, hg, -⟩ := good fun _ _ => 0
    rw [hfac] at hg
    obtain ⟨a, ha, -⟩ := Res.bind_eq_ok.1 hg
    exact ⟨a, ha⟩
  have hb0 : 0 ≤ fb a := by
    by_contra hneg
    obtain ⟨resp, p, hg, -⟩ := good fun _ _ => 0
    rw [hfac, ha, Res.ok_bind] at hg
    obtain ⟨c, hc, -⟩ := Res.bind_eq_ok.1 hg
    unfold responseChallenge at hc
    simp only [Res.bind_eq_ok] at hc
    obtain ⟨_, -, _, -, _, -, cb, hcb, -⟩ := hc
    unfold BN.toBytes at hcb
    simp [show fb a < 0 by omega] at hcb
  set x := block (responseTranscript ⟨v.params, pk, BN.natToBytes cm.toNat, BN.natToBytes cr.toNat, req',
    fr a, BN.natToBytes (fb a).toNat⟩ (fm a)) with hx
  have hch : ∀ O, responseChallenge (withSha512 H O) v pk cm cr req' (fr a) (fb a) (fm a) =
      .ok ((chalOf v.params.chal.toNat (O x) : Nat) : Int) := by
    intro O
    unfold responseChallenge
    rw [lshift64_ok _ (by omega) (by omega), Res.ok_bind, BN.toBytes_of_nonneg hcm, Res.ok_bind,
      BN.toBytes_of_nonneg hcr, Res.ok_bind, BN.toBytes_of_nonneg hb0, Res.ok_bind,
      one_mul, randomOracle_two (by omega) (by omega)]
  have form : ∀ O, generateResponse (withSha512 H O) v sk req' pk cm cr d' =
      post a ((chalOf v.params.chal.toNat (O x) : Nat) : Int) := by
    intro O
    rw [hfac, ha, Res.ok_bind, hch, Res.ok_bind]
  have local_ : ∀ O O', O x = O' x → generateResponse (withSha512 H O) v sk req' pk cm cr d' =
      generateResponse (withSha512 H O') v sk req' pk cm cr d' := by
    intro O O' h
    rw [form, form, h]
  have hc : ∀ O resp p, generateResponse (withSha512 H O) v sk req' pk cm cr d' = .ok (resp, p) →
      BN.ofBytes p.challenge = (chalOf v.params.chal.toNat (O x) : Nat) := by
    intro O resp p hg
    rw [form] at hg
    exact hpost _ _ _ hg (by omega)
  refine ⟨x, local_, fun O => ⟨?_, hc O⟩⟩
  obtain ⟨z, hz⟩ := exists_other (c := v.params.chal.toNat) (by omega) (by omega) (O x)
  have e : generateResponse (withSha512 H O) v sk req' pk cm cr d' =
      generateResponse (withSha512 H (Function.update (fun _ => z) x (O x))) v sk req' pk cm cr d' :=
    local_ _ _ (by simp)
  rw [e]
  obtain ⟨resp, p, hg, hv⟩ := good (Function.update (fun _ => z) x (O x))
  obtain ⟨m, hm, A⟩ := M.response_accepted hshape hv
  have hA := A.challenge
  rw [responseChallenge_eq hcm hcr h1 hchal] at hA
  have hA := Res.ok.inj hA
  rw [hc _ _ _ hg, Function.update_self] at hA
  have hx' : block (hashed v pk cm cr req' resp p m) = x := by
    by_contra hne
    rw [Function.update_of_ne hne] at hA
    exact hz (by exact_mod_cast hA)
  rw [hg]
  simp only [hashedAnswer, hm, hx']

open scoped Classical in
/-- **C133** with SHA-512 a random function: its values are drawn uniformly and independently on the
finite set `D`, which contains the strings that are hashed for answers (elsewhere they are any values
`B`).  For every question `A` about the answer to an honest request and the function, the probability
that it is answered with yes hardly changes when the answer is simulated from the signatures, and the
digest that the simulation has drawn is made the value of the function at the string hashed for it. -/
theorem C133_rom (S : BbSetup gs h n N s g ys xs v sk) (hx : ∀ x ∈ xs, x < N) (κ : Nat)
    (hκ : n ≤ κ * N) (hchal : v.params.chal ≤ 511) (pk : BbPublicKey) (bsk : BbPrivateKey)
    (ms rs : List Int) (cm om cr orr : Int) (R : BbRun gs N ys v pk bsk ms rs cm om cr orr)
    (hgs : ∀ c ∈ gs, ∃ k : Nat, c ≡ h ^ k [ZMOD n]) (Mh : Nat) (hMh0 : 0 < Mh)
    (hMh : h ^ Mh ≡ 1 [ZMOD n]) (H₀ : Hashes) (d : ReqDraws) (req : BbRequest) (π : BbReqProof)
    (st : List Bytes) (hreq : generateRequest H₀ v ms rs pk cm om cr orr d = .ok (req, π, st))
    (σs : List G) (hlen : σs.length = ms.length)
    (hσ : ∀ i < ms.length, IsBbSig v (BN.ofBytes bsk.k) (BN.ofBytes bsk.y) (ms.getD i 0)
      (rs.getD i 0) (σs.getD i 0))
    (H : Hashes) (B : Bytes → Digest) (D : Finset Bytes)
    (hD : ∀ t O x, hashedAnswer v pk cm cr req
      (generateResponse (withSha512 H O) v sk req pk cm cr (answerOf (answerVal
        (k := ms.length) (L := ys.length) (n := n.toNat) (B := respBounds v N ms.length ys.length) t))) =
        some x → x ∈ D)
    (A : Res (List Bytes × BbRespProof) → (Bytes → Digest) → Prop) :
    |prob (fun t : ((Fin 1 → Fin n.toNat) ×
            ((i : RespMask ms.length ys.length) → Fin (respBounds v N ms.length ys.length i))) ×
          (D → Digest) =>
        A (generateResponse (withSha512 H (graft B D t.2)) v sk req pk cm cr (answerOf (answerVal t.1)))
          (graft B D t.2)) -
      prob (fun t : ((Fin 1 → Fin n.toNat) ×
            ((i : RespMask ms.length ys.length) → Fin (respBounds v N ms.length ys.length i))) ×
          Digest × (D → Digest) =>
        A (simAnswer v h n st σs (chalOf v.params.chal.toNat t.2.1) (answerVal t.1))
          (program (graft B D t.2.2) (hashedAnswer v pk cm cr req
            (simAnswer v h n st σs (chalOf v.params.chal.toNat t.2.1) (answerVal t.1))) t.2.1))| ≤
      ((2 * ms.length + ys.length + κ : Nat) : ℚ) / 2 ^ v.params.sec.toNat +
        ms.length / v.group.order + (n.toNat % Mh : Nat) / n.toNat := by
  have M := S.made
  have hq := M.order
  have hn := M.n0
  have hN := M.N1
  have hq0 : 0 < v.group.order := by omega
  refine resampled_close (fun t o => A (generateResponse (withSha512 H (graft B D o)) v sk req pk cm cr
      (answerOf (answerVal t))) (graft B D o))
    (fun t y o => A (generateResponse (withSha512 H fun _ => y) v sk req pk cm cr
        (answerOf (answerVal t)))
      (program (graft B D o) (hashedAnswer v pk cm cr req (generateResponse (withSha512 H fun _ => y) v
        sk req pk cm cr (answerOf (answerVal t)))) y))
    (fun t y o => A (simAnswer v h n st σs (chalOf v.params.chal.toNat y) (answerVal t))
      (program (graft B D o) (hashedAnswer v pk cm cr req (simAnswer v h n st σs
        (chalOf v.params.chal.toNat y) (answerVal t))) y)) (by positivity) (fun t => ?_) fun y o => ?_
  · -- the value at the hashed string may be drawn afresh
    rcases answer_run S hchal R hreq H (answerOf (answerVal t)) with ⟨e, he⟩ | ⟨x, hloc, hrun⟩
    · simp only [he]
      exact (prob_snd (α := Digest) (fun o : D → Digest => A (.err e) (graft B D o))).symm
    · have hxD : x ∈ D := hD t (fun _ _ => 0) x (hrun _).1
      have h3 := resample hxD B (fun O => A (generateResponse (withSha512 H O) v sk req pk cm cr
        (answerOf (answerVal t))) O)
      refine h3.symm.trans (prob_congr fun o => ?_)
      rw [(hrun fun _ => o.1).1, hloc (Function.update (graft B D o.2) x o.1) (fun _ => o.1) (by simp)]
      exact Iff.rfl
  · -- for each digest, the answer is simulated
    have key := C133_answer S hx κ hκ pk bsk ms rs cm om cr orr R hgs Mh hMh0 hMh H₀ d req π st hreq σs
      hlen hσ (chalOf v.params.chal.toNat y) (fun _ => withSha512 H fun _ => y) (by
        intro t _ resp p hg
        rcases answer_run S hchal R hreq H (answerOf t) with ⟨e, he⟩ | ⟨x, hloc, hrun⟩
        · rw [he] at hg; cases hg
        · exact (hrun fun _ => y).2 _ _ hg)
    exact close_prob key (fun _ => by omega) (fun i => by
      rcases i with i | i <;> simp only [respBounds] <;> positivity)
      (fun r => A r (program (graft B D o) (hashedAnswer v pk cm cr req r) y))

/-- There is a set `D` as in `C133_rom`. -/
theorem C133_covers (S : BbSetup gs h n N s g ys xs v sk) (hchal : v.params.chal ≤ 511)
    {pk : BbPublicKey} {bsk : BbPrivateKey} {ms rs : List Int} {cm om cr orr : Int}
    (R : BbRun gs N ys v pk bsk ms rs cm om cr orr) {H₀ : Hashes} {d : ReqDraws} {req : BbRequest}
    {π : BbReqProof} {st : List Bytes}
    (hreq : generateRequest H₀ v ms rs pk cm om cr orr d = .ok (req, π, st)) (H : Hashes)
    {T : Type} [Fintype T] (f : T → RespDraws) :
    ∃ D : Finset Bytes, ∀ t O x, hashedAnswer v pk cm cr req
      (generateResponse (withSha512 H O) v sk req pk cm cr (f t)) = some x → x ∈ D := by
  classical
  have run := fun t => answer_run S hchal R hreq H (f t)
  refine ⟨Finset.univ.image fun t => (hashedAnswer v pk cm cr req
    (generateResponse (withSha512 H fun _ _ => 0) v sk req pk cm cr (f t))).getD [], fun t O x hx => ?_⟩
  refine Finset.mem_image.2 ⟨t, Finset.mem_univ _, ?_⟩
  rcases run t with ⟨e, he⟩ | ⟨z, -, hz⟩
  · rw [he] at hx; cases hx
  · rw [(hz _).1] at hx ⊢
    exact Option.some.inj hx

end PJC.RomSound
