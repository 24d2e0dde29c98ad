import Verif.Props.BbRespZk
set_option linter.unusedSectionVars false
/-
C102: what the signer decrypts from a request is independent of the messages and nonces.
-/
namespace PJC.Bb
open PJC.Stat

variable {G : Type} [AddCommGroup G] [DecidableEq G]

/-- bb_oblivious_signature.cc:1117-1137: the values that the signer decrypts from a request. -/
def decryptRequest (v : BbSig G) (sk : CsPrivate) (req : BbRequest) : Res (List Int) := do
  let cts ← req.cts.mapM (Cs.parseCiphertextProto v.cs)
  let pts ← cts.mapM (Cs.decrypt sk)
  return pts.flatten.take req.num

/-- The blinding factors of a request for `L` messages: multiplicative and additive. -/
abbrev BlindMask (L : Nat) := Fin L ⊕ Fin L

/-- bb_oblivious_signature.cc:531-556: the number of values of each. -/
def blindBounds (v : BbSig G) (L : Nat) : BlindMask L → Nat
  | .inl _ => v.group.order - 1
  | .inr _ => v.group.order * v.group.order * 2 ^ (v.params.chal + v.params.sec).toNat

/-- The draws `d` with the blinding factors replaced by `a`. -/
def blind {L : Nat} (d : ReqDraws) (a : BlindMask L → Nat) : ReqDraws :=
  { d with
    a := drawFn fun i => a (.inl i)
    b := drawFn fun i => a (.inr i) }

/-- Specification: values that have nothing to do with the messages: `x + b q` with `x` uniform in
`[1, q)` and `b` uniform in `[0, q² 2 ^ (challenge + security))`. -/
def blindValues (v : BbSig G) {L : Nat} (a : BlindMask L → Nat) : List Int :=
  List.ofFn fun i => ((1 + a (.inl i) : Nat) : Int) + a (.inr i) * v.group.order

theorem StatClose.triangle {α β : Type} {D : Finset α} {f f' g : α → β} {n n' den : Nat}
    (h : StatClose D f g n den) (h' : StatClose D f' g n' den) :
    StatClose D f f' (n + n') den := by
  intro S _
  have h1 := h S
  have h2 := h' S
  set x : Int := ((D.filter fun a => S (f a)).card : Int)
  set y : Int := ((D.filter fun a => S (f' a)).card : Int)
  set z : Int := ((D.filter fun a => S (g a)).card : Int)
  have h3 : |x - y| ≤ |x - z| + |y - z| := by
    rw [abs_sub_comm y z]
    exact abs_sub_le x z y
  have h4 : |x - y| * (den : Int) ≤ (|x - z| + |y - z|) * den :=
    mul_le_mul_of_nonneg_right h3 (by omega)
  push_cast
  rw [add_mul] at h4 ⊢
  omega

/-- The map from draws to what the signer sees: `a M mod q` and `b + ⌊a M / q⌋`. -/
def blindMap (q : Nat) {L : Nat} (M : Fin L → Nat) (a : BlindMask L → Nat) : BlindMask L → Nat
  | .inl i => (1 + a (.inl i)) * M i % q - 1
  | .inr i => a (.inr i) + (1 + a (.inl i)) * M i / q

end PJC.Bb

namespace PJC.Props
open PJC.Bb PJC.DJ PJC.Stat

variable {G : Type} [AddCommGroup G] [DecidableEq G]
variable {gs : List Int} {h n : Int} {N s : Nat} {g : Int} {ys xs : List Int} {v : BbSig G}
  {sk : CsPrivate}

/-- **C102**: with the blinding factors uniform over their ranges (and all other draws and the hash
functions arbitrary), the list of values the signer decrypts from an honest request for `L` messages
is distributed like a list of values that does not depend on messages, nonces or keys, up to
a statistical distance of `L / 2 ^ (challenge + security)`. -/
theorem C102_blind (S : BbSetup gs h n N s g ys xs v sk) (pk : BbPublicKey) (bsk : BbPrivateKey)
    (ms rs : List Int) (cm om cr orr : Int) (R : BbRun gs N ys v pk bsk ms rs cm om cr orr)
    (L : Nat) (hL : ms.length = L)
    (hm : ∀ i < ms.length, ¬ ms.getD i 0 + BN.ofBytes bsk.k + BN.ofBytes bsk.y * rs.getD i 0 ≡ 0
      [ZMOD v.group.order])
    (d : ReqDraws) (hu : ∀ r ∈ requestRandomness v N ys.length ms.length d, Usable N r)
    (H : (BlindMask L → Nat) → Hashes) :
    StatClose (Box (blindBounds v L))
      (fun a => do
        let (req, _, _) ← generateRequest (H a) v ms rs pk cm om cr orr (blind d a)
        decryptRequest v sk req)
      (fun a => .ok (blindValues v a)) L (2 ^ (v.params.chal + v.params.sec).toNat) := by
  classical
  subst hL
  have Md := S.made
  have hq := Md.order
  have hqN : 2 ≤ v.group.order := by omega
  set q := v.group.order with hqd
  set T := 2 ^ (v.params.chal + v.params.sec).toNat with hT
  have hTpos : 0 < T := by positivity
  -- the keys
  obtain ⟨k, hk0, hkq, hkb, y, hy0, hyq, hyb⟩ : ∃ k : Nat, 1 ≤ k ∧ k < q ∧ BN.ofBytes bsk.k = k ∧
      ∃ y : Nat, 1 ≤ y ∧ y < q ∧ BN.ofBytes bsk.y = y := by
    obtain ⟨wk, wy, dK, dY, hdk, hdy, hkeys⟩ := R.keys
    obtain ⟨k, y, hk1, hk2, hy1, hy2, hg⟩ := Md.generateKeys_ok wk wy hdk hdy
    rw [hg] at hkeys
    simp only [Res.ok.injEq, Prod.mk.injEq] at hkeys
    obtain ⟨-, rfl⟩ := hkeys
    refine ⟨k.toNat, by omega, by omega, ?_, y.toNat, by omega, by omega, ?_⟩
    · rw [Int.toNat_of_nonneg (by omega)]; exact ofBytes_encB (by omega)
    · rw [Int.toNat_of_nonneg (by omega)]; exact ofBytes_encB (by omega)
  -- what is signed
  have inRange : ∀ {l : List Int}, (∀ m ∈ l, 0 ≤ m ∧ m < (q : Int)) → ∀ i : Nat, i < l.length →
      ∃ m : Nat, l.getD i 0 = m ∧ m < q := by
    intro l hl i hi
    have := hl _ (getD_mem 0 hi)
    exact ⟨(l.getD i 0).toNat, by omega, by omega⟩
  have hMex : ∀ i : Fin ms.length, ∃ m : Nat,
      ms.getD i 0 + BN.ofBytes bsk.k + BN.ofBytes bsk.y * rs.getD i 0 = m ∧ m < q * q ∧ ¬ q ∣ m := by
    intro i
    obtain ⟨m, e1, h1⟩ := inRange R.messages i i.2
    obtain ⟨r, e2, h2⟩ := inRange R.nonces i (by rw [R.sizes.1]; exact i.2)
    have hne := hm i i.2
    refine ⟨m + k + y * r, by rw [e1, e2, hkb, hyb]; push_cast; ring, ?_, ?_⟩
    · obtain ⟨p, hp⟩ := Nat.exists_eq_add_of_lt (show 0 < q by omega)
      have hqp : q = p + 1 := by omega
      have h3 : y * r ≤ p * p := Nat.mul_le_mul (by omega) (by omega)
      have h4 : q * q = p * p + 2 * p + 1 := by rw [hqp]; ring
      omega
    · intro hdv
      apply hne
      rw [e1, e2, hkb, hyb]
      apply Int.modEq_zero_iff_dvd.2
      have : ((q : Nat) : Int) ∣ ((m + k + y * r : Nat) : Int) := by exact_mod_cast hdv
      push_cast at this
      exact this
  choose M hM hMlt hMnd using hMex
  have hprime : q.Prime := Md.lawful.prime
  -- residues
  have hres : ∀ (x : Nat) (i : Fin ms.length), x < q - 1 → 1 ≤ (1 + x) * M i % q := by
    intro x i hx
    by_contra hcon
    have h0 : (1 + x) * M i % q = 0 := by omega
    rcases hprime.dvd_mul.1 (Nat.dvd_of_mod_eq_zero h0) with h1 | h1
    · have := Nat.le_of_dvd (by omega) h1
      omega
    · exact hMnd i h1
  have hquo : ∀ (x : Nat) (i : Fin ms.length), x < q - 1 → (1 + x) * M i / q < q * q := by
    intro x i hx
    rw [Nat.div_lt_iff_lt_mul (by omega)]
    calc (1 + x) * M i < q * (q * q) := by
          calc (1 + x) * M i ≤ q * M i := Nat.mul_le_mul_right _ (by omega)
            _ < q * (q * q) := Nat.mul_lt_mul_of_pos_left (hMlt i) (by omega)
      _ = q * q * q := by ring
  have hpos : ∀ i, 0 < blindBounds v ms.length i := by
    intro i
    rcases i with i | i
    · show 0 < q - 1; omega
    · show 0 < q * q * T
      have : 0 < q := by omega
      positivity
  -- draws for which the sum leaves the range
  have hbad : ∀ j : Fin ms.length, ((Finset.range (blindBounds v ms.length (.inr j))).filter
      fun x => q * q * T ≤ x + q * q).card * T ≤ 1 * blindBounds v ms.length (.inr j) := by
    intro j
    have hsub : (Finset.range (blindBounds v ms.length (.inr j))).filter
        (fun x => q * q * T ≤ x + q * q) ⊆ Finset.Ico (q * q * T - q * q) (q * q * T) := by
      intro x hx
      rw [Finset.mem_filter, Finset.mem_range] at hx
      have h1 : x < q * q * T := hx.1
      rw [Finset.mem_Ico]
      omega
    have h1 := Finset.card_le_card hsub
    rw [Nat.card_Ico] at h1
    have h2 : ((Finset.range (blindBounds v ms.length (.inr j))).filter
        fun x => q * q * T ≤ x + q * q).card ≤ q * q := by omega
    calc _ ≤ q * q * T := Nat.mul_le_mul_right _ h2
      _ = _ := by rw [one_mul]; rfl
  obtain ⟨V, hV, hVm, hVc⟩ := exists_bad (blindBounds v ms.length)
    (fun j : Fin ms.length => .inr j) (fun _ (x : Nat) => q * q * T ≤ x + q * q) hpos 1 T hbad
  rw [Fintype.card_fin, mul_one] at hVc
  refine close_of_inj (Box (blindBounds v ms.length)) V _ _ (blindMap q M) _ _ hV hVc ?_ ?_ ?_
  · intro a ha hna
    have ha' := mem_box.1 ha
    rw [mem_box]
    intro i
    rcases i with i | i
    · have h1 : (1 + a (.inl i)) * M i % q < q := Nat.mod_lt _ (by omega)
      have h2 := hres (a (.inl i)) i (ha' (.inl i))
      show (1 + a (.inl i)) * M i % q - 1 < q - 1
      omega
    · have h1 := hquo (a (.inl i)) i (ha' (.inl i))
      have h2 := hVm a ha hna i
      show a (.inr i) + (1 + a (.inl i)) * M i / q < q * q * T
      omega
  · intro a ha b hb hab
    have ha' := mem_box.1 ha
    have hb' := mem_box.1 hb
    have hl : ∀ i, a (.inl i) = b (.inl i) := by
      intro i
      have e := congrFun hab (.inl i)
      have h1 := hres (a (.inl i)) i (ha' (.inl i))
      have h2 := hres (b (.inl i)) i (hb' (.inl i))
      have e' : (1 + a (.inl i)) * M i % q = (1 + b (.inl i)) * M i % q := by
        change (1 + a (.inl i)) * M i % q - 1 = (1 + b (.inl i)) * M i % q - 1 at e
        omega
      have hcop : Nat.Coprime q (M i) := (Nat.Prime.coprime_iff_not_dvd hprime).2 (hMnd i)
      have e2 : 1 + a (.inl i) ≡ 1 + b (.inl i) [MOD q] :=
        Nat.ModEq.cancel_right_of_coprime hcop e'
      have l1 : a (.inl i) < q - 1 := ha' (.inl i)
      have l2 : b (.inl i) < q - 1 := hb' (.inl i)
      have := Nat.ModEq.eq_of_lt_of_lt e2 (by omega) (by omega)
      omega
    funext i
    rcases i with i | i
    · exact hl i
    · have e := congrFun hab (.inr i)
      change a (.inr i) + (1 + a (.inl i)) * M i / q = b (.inr i) + (1 + b (.inl i)) * M i / q at e
      rw [hl i] at e
      omega
  · intro a ha _
    have ha' := mem_box.1 ha
    obtain ⟨req, π, st, w, cts, k', y', hk', hy', hw, -, hnum, henc, hgen, -, -, -⟩ :=
      bb_run S R (H a) (blind d a)
    have hu' : ∀ r ∈ requestRandomness v N ys.length ms.length (blind d a), Usable N r := hu
    have hu2 : ∀ r ∈ requestRandomness v N ys.length ms.length (blind d a), RandOk N r := hu
    rw [if_pos hu2] at hgen
    simp only [hgen, Res.ok_bind]
    have RO := henc hu'
    -- the values that are encrypted
    have hβ : ∀ i : Fin ms.length, betaP v.group.order k' y' w i =
        ((1 + blindMap q M a (.inl i) : Nat) : Int) + blindMap q M a (.inr i) * q := by
      intro i
      have e1 : aOf v ((blind d a).a i) = ((1 + a (.inl i) : Nat) : Int) := by
        have : (blind d a).a i = a (.inl i) := by simp only [blind, drawFn, i.2, dif_pos]
        rw [this]
        unfold aOf
        have l1 : a (.inl i) < q - 1 := ha' (.inl i)
        rw [Int.emod_eq_of_lt (by omega) (by omega)]
        push_cast
        ring
      have e2 : ((blind d a).b i : Int) % ((q : Int) * q * 2 ^ tBits v) = (a (.inr i) : Int) := by
        have : (blind d a).b i = a (.inr i) := by simp only [blind, drawFn, i.2, dif_pos]
        rw [this]
        have l1 : a (.inr i) < q * q * T := ha' (.inr i)
        refine Int.emod_eq_of_lt (by omega) ?_
        have : ((a (.inr i) : Nat) : Int) < ((q * q * T : Nat) : Int) := by exact_mod_cast l1
        push_cast [hT] at this
        exact this
      have h1 := hres (a (.inl i)) i (ha' (.inl i))
      have hmain : betaP v.group.order k' y' w i =
          ((1 + a (.inl i) : Nat) : Int) * M i + (a (.inr i) : Int) * q := by
        rw [← hM i, hw]
        unfold betaP maskedMessages secretP
        dsimp only
        rw [zipWith_getD (by simp) (by rw [drawP_length]; exact i.2),
          zipWith_getD i.2 (by simp), zipWith_getD (by rw [R.sizes.1]; exact i.2) (by simp),
          getD_map_range _ _ i.2, e1]
        have e3 : (drawP ms.length ((v.group.order : Int) * v.group.order * 2 ^ tBits v)
            (blind d a).b).getD i 0 = (a (.inr i) : Int) := by
          unfold drawP
          rw [getD_map_range _ _ i.2]
          exact e2
        rw [e3, hk', hy']
        ring
      rw [hmain]
      have h2 := Nat.mod_add_div ((1 + a (.inl i)) * M i) q
      have e4 : 1 + blindMap q M a (.inl i) = (1 + a (.inl i)) * M i % q := by
        show 1 + ((1 + a (.inl i)) * M i % q - 1) = _
        omega
      rw [e4]
      show _ = _ + ((a (.inr i) + (1 + a (.inl i)) * M i / q : Nat) : Int) * (q : Int)
      have h3 : (((1 + a (.inl i)) * M i % q : Nat) : Int) +
          (q : Int) * (((1 + a (.inl i)) * M i / q : Nat) : Int) =
          ((1 + a (.inl i) : Nat) : Int) * M i := by exact_mod_cast h2
      rw [← h3]
      push_cast
      ring
    have hun : ∀ i < req.num, ¬ (v.group.order : Int) ∣ betaP v.group.order k' y' w i := by
      intro i hi hdv
      rw [hnum] at hi
      rw [hβ ⟨i, hi⟩] at hdv
      have h1 := hres (a (.inl ⟨i, hi⟩)) ⟨i, hi⟩ (ha' (.inl ⟨i, hi⟩))
      have h2 : (1 + a (.inl ⟨i, hi⟩)) * M ⟨i, hi⟩ % q < q := Nat.mod_lt _ (by omega)
      have h3 : 1 + blindMap q M a (.inl ⟨i, hi⟩) = (1 + a (.inl ⟨i, hi⟩)) * M ⟨i, hi⟩ % q := by
        show 1 + ((1 + a (.inl ⟨i, hi⟩)) * M ⟨i, hi⟩ % q - 1) = _
        omega
      have h4 : (q : Int) ∣ ((1 + blindMap q M a (.inl ⟨i, hi⟩) : Nat) : Int) :=
        (Int.dvd_add_left (Dvd.intro_left _ rfl)).1 hdv
      have h5 : q ∣ 1 + blindMap q M a (.inl ⟨i, hi⟩) := by exact_mod_cast h4
      have := Nat.le_of_dvd (by omega) h5
      omega
    obtain ⟨cts', pts, o1, o2, o3⟩ := (Md.opens S.priv RO hun).decrypts
    unfold decryptRequest
    rw [o1, Res.ok_bind, o2, Res.ok_bind, ← o3, Res.pure_eq]
    congr 1
    apply List.ext_getElem
    · simp [hnum, blindValues]
    · intro i h1 h2
      have hi : i < ms.length := by simpa [hnum] using h1
      simp only [List.getElem_map, List.getElem_range, blindValues, List.getElem_ofFn]
      exact hβ ⟨i, hi⟩

/-- **C102**: so the values that the signer decrypts from two requests for as many messages are
distributed alike, whatever the messages, nonces, openings and keys, up to
`2 L / 2 ^ (challenge + security)`. -/
theorem C102_oblivious (S : BbSetup gs h n N s g ys xs v sk) (L : Nat)
    (pk pk' : BbPublicKey) (bsk bsk' : BbPrivateKey) (ms rs ms' rs' : List Int)
    (cm om cr orr cm' om' cr' orr' : Int) (R : BbRun gs N ys v pk bsk ms rs cm om cr orr)
    (R' : BbRun gs N ys v pk' bsk' ms' rs' cm' om' cr' orr')
    (hL : ms.length = L) (hL' : ms'.length = L)
    (hm : ∀ i < ms.length, ¬ ms.getD i 0 + BN.ofBytes bsk.k + BN.ofBytes bsk.y * rs.getD i 0 ≡ 0
      [ZMOD v.group.order])
    (hm' : ∀ i < ms'.length, ¬ ms'.getD i 0 + BN.ofBytes bsk'.k +
      BN.ofBytes bsk'.y * rs'.getD i 0 ≡ 0 [ZMOD v.group.order])
    (d d' : ReqDraws) (hu : ∀ r ∈ requestRandomness v N ys.length L d, Usable N r)
    (hu' : ∀ r ∈ requestRandomness v N ys.length L d', Usable N r)
    (H H' : (BlindMask L → Nat) → Hashes) :
    StatClose (Box (blindBounds v L))
      (fun a => do
        let (req, _, _) ← generateRequest (H a) v ms rs pk cm om cr orr (blind d a)
        decryptRequest v sk req)
      (fun a => do
        let (req, _, _) ← generateRequest (H' a) v ms' rs' pk' cm' om' cr' orr' (blind d' a)
        decryptRequest v sk req)
      (L + L) (2 ^ (v.params.chal + v.params.sec).toNat) :=
  StatClose.triangle
    (C102_blind S pk bsk ms rs cm om cr orr R L hL hm d (by rw [hL]; exact hu) H)
    (C102_blind S pk' bsk' ms' rs' cm' om' cr' orr' R' L hL' hm' d' (by rw [hL']; exact hu') H')

/-- The hypotheses hold in the toy instance. -/
example : ∃ (v : BbSig (ZMod 11)) (sk : CsPrivate) (pk : BbPublicKey) (bsk : BbPrivateKey)
    (cm cr : Int), BbSetup toyBbGs 7 46189 221 2 3 toyBbYs toyBbXs v sk ∧
    BbRun toyBbGs 221 toyBbYs v pk bsk [1, 2, 10] [3, 0, 9] cm 55 cr 66 ∧
    (∀ i < 3, ¬ [(1 : Int), 2, 10].getD i 0 + BN.ofBytes bsk.k +
      BN.ofBytes bsk.y * [(3 : Int), 0, 9].getD i 0 ≡ 0 [ZMOD v.group.order]) ∧
    ∀ r ∈ requestRandomness v 221 2 3 toyReqDraws, Usable 221 r := by
  obtain ⟨v, sk, pk, bsk, cm, cr, H₀, req, π, st, resp, π', S, R, hreq, -, hresp, -⟩ := toyBb
  refine ⟨v, sk, pk, bsk, cm, cr, S, R, ?_, ?_⟩
  · rcases C62_response _ _ _ _ _ _ _ _ v sk S pk bsk _ _ cm 55 cr 66 R _ H₀ _ req π st hreq
      toyRespDraws with ⟨h1, -⟩ | ⟨h1, -⟩
    · rw [hresp] at h1; cases h1
    · exact h1
  · rcases C61_request _ _ _ _ _ _ _ _ v sk S pk bsk _ _ cm 55 cr 66 R H₀ toyReqDraws with
      ⟨-, h1⟩ | ⟨h1, -⟩
    · rw [hreq] at h1; cases h1
    · exact h1

end PJC.Props
