import Verif.Lemmas.RandomOracle
import Verif.Props.Transcript
import Verif.Props.Weierstrass
import Verif.Props.RomSound
set_option linter.unusedSectionVars false
/-
C125: soundness of the proofs for Pedersen parameters when SHA-512 is a random function.

Wrong parameters are a pair `g`, `h` modulo `n` such that `g` is not a power of `h`.
-/
namespace PJC.PedRom
open PJC.Curve PJC.Ped PJC.Oracle PJC.Prob PJC.Props

/-! ### The proof for untrusted moduli does not have the soundness it claims

The first messages of the repetitions are hashed one after the other without their lengths.  A
string of `3 k` bytes `01` can be cut into `k` first messages in many ways.  Modulo `n` below,
the numbers `01`, `01 01` and `01 01 01 01 01` are powers of `h`, and `01 01 01` and
`01 01 01 01` are powers of `h` divided by `g`: so the first two lengths and the fifth can answer the
challenge 0, the others the challenge 1, and the cut is made after the challenge is known. -/

/-- The number written with `t` bytes `01`. -/
def ones : Nat → Nat
  | 0 => 0
  | t + 1 => ones t * 256 + 1

/-- The response for a first message of `t` bytes. -/
def answer : Nat → Int
  | 2 => 641187887
  | 3 => 1195439700
  | 4 => 639182445
  | 5 => 446362872
  | _ => 0

/-- The lengths that can answer a challenge. -/
def Fits (c : Bool) (t : Nat) : Prop := if c then t = 3 ∨ t = 4 else t = 1 ∨ t = 2 ∨ t = 5

/-- Deal the lengths `zs` to the challenges 0 and `os` to the challenges 1. -/
def deal : List Bool → List Nat → List Nat → List Nat
  | [], _, _ => []
  | false :: cs, zs, os => zs.headD 0 :: deal cs zs.tail os
  | true :: cs, zs, os => os.headD 0 :: deal cs zs os.tail

theorem deal_length : ∀ (cs : List Bool) (zs os : List Nat), (deal cs zs os).length = cs.length
  | [], _, _ => rfl
  | false :: cs, zs, os => by simp [deal, deal_length cs]
  | true :: cs, zs, os => by simp [deal, deal_length cs]

theorem deal_sum : ∀ (cs : List Bool) (zs os : List Nat), zs.length = cs.count false →
    os.length = cs.count true → (deal cs zs os).sum = zs.sum + os.sum
  | [], zs, os, h, h' => by
    simp at h h'
    simp [deal, h, h']
  | false :: cs, [], os, h, h' => by simp at h
  | false :: cs, z :: zs, os, h, h' => by
    simp at h h'
    simp [deal, deal_sum cs zs os h h']
    omega
  | true :: cs, zs, [], h, h' => by simp at h'
  | true :: cs, zs, o :: os, h, h' => by
    simp at h h'
    simp [deal, deal_sum cs zs os h h']
    omega

theorem deal_fits : ∀ (cs : List Bool) (zs os : List Nat), zs.length = cs.count false →
    os.length = cs.count true → (∀ z ∈ zs, Fits false z) → (∀ o ∈ os, Fits true o) →
    List.Forall₂ Fits cs (deal cs zs os)
  | [], zs, os, h, h', hz, ho => List.Forall₂.nil
  | false :: cs, [], os, h, h', _, _ => by simp at h
  | false :: cs, z :: zs, os, h, h', hz, ho => by
    simp at h h'
    exact .cons (hz z (by simp)) (deal_fits cs zs os h h' (fun x hx => hz x (by simp [hx])) ho)
  | true :: cs, zs, [], h, h', _, _ => by simp at h'
  | true :: cs, zs, o :: os, h, h', hz, ho => by
    simp at h h'
    exact .cons (ho o (by simp)) (deal_fits cs zs os h h' hz (fun x hx => ho x (by simp [hx])))

/-- Lengths for `z` challenges 0 that sum up to three times their number. -/
theorem zero_lengths : ∀ z : Nat, z ≠ 1 → ∃ zs : List Nat, zs.length = z ∧ zs.sum = 3 * z ∧
    ∀ x ∈ zs, Fits false x
  | 0, _ => ⟨[], rfl, rfl, by simp⟩
  | 1, h => absurd rfl h
  | 2, _ => ⟨[1, 5], rfl, rfl, by simp [Fits]⟩
  | 3, _ => ⟨[2, 2, 5], rfl, rfl, by simp [Fits]⟩
  | z + 4, _ => by
    obtain ⟨zs, h1, h2, h3⟩ := zero_lengths (z + 2) (by omega)
    refine ⟨1 :: 5 :: zs, by simp [h1], by simp [h2]; omega, ?_⟩
    intro x hx
    simp only [List.mem_cons] at hx
    rcases hx with rfl | rfl | hx
    · simp [Fits]
    · simp [Fits]
    · exact h3 x hx

/-- For every challenge of at least two repetitions there are lengths that can answer it and sum up
to three bytes for each repetition. -/
theorem cut (cs : List Bool) (h : 2 ≤ cs.length) :
    ∃ ts : List Nat, ts.sum = 3 * cs.length ∧ List.Forall₂ Fits cs ts := by
  have hl : cs.count false + cs.count true = cs.length := by
    clear h
    induction cs with
    | nil => rfl
    | cons c cs ih => cases c <;> simp <;> omega
  by_cases h1 : cs.count false = 1
  · have ho : cs.count true = cs.length - 2 + 1 := by omega
    refine ⟨deal cs [2] (4 :: List.replicate (cs.length - 2) 3), ?_, deal_fits _ _ _ (by simp [h1])
      (by simp [ho]) (by simp [Fits]) ?_⟩
    · rw [deal_sum _ _ _ (by simp [h1]) (by simp [ho])]
      simp
      omega
    · intro o ho
      simp only [List.mem_cons, List.mem_replicate] at ho
      rcases ho with rfl | ⟨-, rfl⟩ <;> simp [Fits]
  · obtain ⟨zs, e1, e2, e3⟩ := zero_lengths _ h1
    refine ⟨deal cs zs (List.replicate (cs.count true) 3), ?_, deal_fits _ _ _ e1 (by simp) e3 ?_⟩
    · rw [deal_sum _ _ _ e1 (by simp), e2]
      simp
      omega
    · intro o ho
      obtain ⟨-, rfl⟩ := List.mem_replicate.1 ho
      simp [Fits]

theorem fits_le {c : Bool} {t : Nat} (h : Fits c t) : t ≤ 5 := by
  cases c <;> simp [Fits] at h <;> omega

theorem ones_bytes {t : Nat} (h : t ≤ 5) :
    BN.toBytes (ones t : Int) = .ok (List.replicate t (1 : Byte)) := by
  interval_cases t <;> decide +kernel

theorem ones_mapM : ∀ ts : List Nat, (∀ t ∈ ts, t ≤ 5) →
    ∃ bs, (ts.map fun t => (ones t : Int)).mapM BN.toBytes = .ok bs ∧
      bs.flatten = List.replicate ts.sum (1 : Byte)
  | [], _ => ⟨[], rfl, rfl⟩
  | t :: ts, h => by
    obtain ⟨bs, h1, h2⟩ := ones_mapM ts fun x hx => h x (by simp [hx])
    refine ⟨List.replicate t 1 :: bs, ?_, ?_⟩
    · rw [List.map_cons, List.mapM_cons, ones_bytes (h t (by simp)), Res.ok_bind, h1, Res.ok_bind]
      rfl
    · rw [List.flatten_cons, h2, List.sum_cons, ← List.replicate_add]

/-- The modulus, a product of the safe primes 66959 and 75239. -/
def wrongN : Int := 5037928201

/-- The hashed string for `k` repetitions. -/
def string (k : Nat) : Bytes :=
  BN.natToBytes 13 ++ BN.natToBytes 4 ++ BN.natToBytes 5037928201 ++ List.replicate (3 * k) 1

theorem ones_transcript {ts : List Nat} {k : Nat} (h : ∀ t ∈ ts, t ≤ 5) (hs : ts.sum = 3 * k) :
    transcript 13 4 wrongN (ts.map fun t => (ones t : Int)) = .ok (string k) := by
  obtain ⟨bs, h1, h2⟩ := ones_mapM ts h
  unfold transcript
  rw [BN.toBytes_of_nonneg (by decide), BN.toBytes_of_nonneg (by decide),
    BN.toBytes_of_nonneg (by decide), h1]
  simp only [Res.ok_bind, Res.pure_eq, h2, hs]
  rfl

theorem pow_mod (e v : Nat) (h : e < 2 ^ 40) (hv : powMod 5037928201 40 4 e = v) :
    (4 : Int) ^ e % wrongN = v := by
  rw [powMod_eq _ _ _ _ h] at hv
  rw [← hv]
  show (4 : Int) ^ e % 5037928201 = _
  push_cast
  rfl

theorem fits_answer {c : Bool} {t : Nat} (h : Fits c t) : 0 ≤ answer t ∧
    (do let e ← expected 13 wrongN c (ones t : Int)
        let hs ← BN.modExp 4 (answer t) wrongN
        return decide (hs = e)) = .ok true := by
  have key : ∀ (e : Nat) (v : Nat), e < 2 ^ 40 → powMod 5037928201 40 4 e = v →
      BN.modExp 4 (e : Int) wrongN = .ok (v : Int) := by
    intro e v h hv
    unfold BN.modExp
    rw [if_neg (by omega), if_neg (by decide), Int.toNat_natCast, pow_mod e v h hv]
  cases c
  · simp only [Fits, Bool.false_eq_true, if_false] at h
    rcases h with rfl | rfl | rfl
    · exact ⟨by decide, by decide +kernel⟩
    · refine ⟨by decide, ?_⟩
      have := key 641187887 (ones 2) (by decide) (by decide +kernel)
      simp only [answer]
      rw [show ((641187887 : Nat) : Int) = 641187887 from rfl] at this
      rw [this]
      rfl
    · refine ⟨by decide, ?_⟩
      have := key 446362872 (ones 5) (by decide) (by decide +kernel)
      simp only [answer]
      rw [show ((446362872 : Nat) : Int) = 446362872 from rfl] at this
      rw [this]
      rfl
  · simp only [Fits, if_true] at h
    rcases h with rfl | rfl
    · refine ⟨by decide, ?_⟩
      have := key 1195439700 (ones 3 * 13 % 5037928201) (by decide) (by decide +kernel)
      simp only [answer]
      rw [show ((1195439700 : Nat) : Int) = 1195439700 from rfl] at this
      rw [this]
      decide +kernel
    · refine ⟨by decide, ?_⟩
      have := key 639182445 (ones 4 * 13 % 5037928201) (by decide) (by decide +kernel)
      simp only [answer]
      rw [show ((639182445 : Nat) : Int) = 639182445 from rfl] at this
      rw [this]
      decide +kernel

theorem loop_accepts : ∀ {cs : List Bool} {ts : List Nat}, List.Forall₂ Fits cs ts →
    verifyLoop 13 4 wrongN cs (ts.map fun t => (ones t : Int)) (ts.map answer) = .ok ()
  | _, _, .nil => rfl
  | _, _, .cons h hs => by
    have := (fits_answer h).2
    simp only [Res.bind_eq_ok, Res.pure_eq, Res.ok.injEq, decide_eq_true_eq] at this
    obtain ⟨e, h1, x, h2, rfl⟩ := this
    simp only [List.map_cons, verifyLoop]
    rw [h1, Res.ok_bind, h2, Res.ok_bind, if_neg (not_not.2 rfl)]
    exact loop_accepts hs

/-- The proof made for the challenge `cs`. -/
noncomputable def forged (reps : Int) (cs : List Bool) : ProofOfGen :=
  open scoped Classical in
  if h : 2 ≤ cs.length then ⟨reps, (cut cs h).choose.map fun t => (ones t : Int),
    (cut cs h).choose.map answer⟩ else ⟨reps, [], []⟩

theorem forged_ok {H : Hashes} {reps : Int} (h2 : 2 ≤ reps) {c : Int} {cs : List Bool}
    (hc : Ctx.randomOracleSha512 H (string reps.toNat) (2 ^ reps.toNat) = .ok c)
    (hb : bitsLoop reps.toNat c = .ok cs) : verifyProof H 13 4 wrongN (forged reps cs) = .ok () := by
  have hl : cs.length = reps.toNat := by
    obtain ⟨bs, h1, h2⟩ := bitsLoop_ok reps.toNat c
    rw [h1] at hb
    cases hb
    exact h2
  have hl2 : 2 ≤ cs.length := by omega
  obtain ⟨e1, e2⟩ := (cut cs hl2).choose_spec
  rw [forged, dif_pos hl2]
  generalize (cut cs hl2).choose = ts at e1 e2
  have hlt := e2.length_eq
  have hts : ∀ t ∈ ts, t ≤ 5 := by
    intro t ht
    obtain ⟨i, hi, rfl⟩ := List.getElem_of_mem ht
    exact fits_le ((List.forall₂_iff_get.1 e2).2 i (by omega) hi)
  unfold verifyProof
  simp only
  rw [if_neg (by omega), if_neg (by simp; omega), if_neg (by simp; omega), if_neg (by decide +kernel)]
  have ht := ones_transcript hts (by rw [e1, hl])
  rw [genProofChallenge, ht, Res.ok_bind, BN.lshift, if_neg (by omega), Res.ok_bind, one_mul, hc,
    Res.ok_bind, hb, Res.ok_bind]
  exact loop_accepts e2

theorem not_power : ¬ ∃ k : Nat, (13 : Int) % wrongN = 4 ^ k % wrongN := by
  rintro ⟨k, hk⟩
  have hq : Nat.Prime 75239 := by norm_num
  have : Fact (Nat.Prime 75239) := ⟨hq⟩
  have hd : (75239 : Int) ∣ wrongN := by decide
  have h1 : (13 : Int) ≡ 4 ^ k [ZMOD 75239] := Int.ModEq.of_dvd hd hk
  have h2 : ((13 : Int) : ZMod 75239) = ((4 ^ k : Int) : ZMod 75239) :=
    (ZMod.intCast_eq_intCast_iff _ _ _).2 h1
  push_cast at h2
  have h3 : (13 : ZMod 75239) ^ 37619 = 1 := by
    rw [h2, ← pow_mul, mul_comm, pow_mul]
    have : (4 : ZMod 75239) ^ 37619 = 1 := by
      have f : (2 : ZMod 75239) ^ (75239 - 1) = 1 := ZMod.pow_card_sub_one_eq_one (by
        rw [show (2 : ZMod 75239) = ((2 : Nat) : ZMod 75239) by norm_num, Ne,
          ZMod.natCast_eq_zero_iff]
        norm_num)
      rw [show (4 : ZMod 75239) = 2 ^ 2 by norm_num, ← pow_mul]
      exact f
    rw [this, one_pow]
  have h4 : ((13 ^ 37619 : Nat) : ZMod 75239) = ((1 : Nat) : ZMod 75239) := by
    rw [Nat.cast_pow, Nat.cast_one]
    exact h3
  rw [ZMod.natCast_eq_natCast_iff] at h4
  revert h4
  unfold Nat.ModEq
  rw [← powMod_eq 75239 20 13 37619 (by decide)]
  decide +kernel

/-- **C125** fails for `VerifyParamsProof`: there are wrong parameters, with a modulus that is a
product of two safe primes and an `h` that generates the squares as an honest `h` does, such that
for every hash function and every number of repetitions from 2 on some proof is accepted. -/
theorem C125_untrusted_fails : ∃ (g h n : Int) (p q p' q' : Nat), p.Prime ∧ q.Prime ∧ p'.Prime ∧
    q'.Prime ∧ p = 2 * p' + 1 ∧ q = 2 * q' + 1 ∧ p ≠ q ∧ n = (p : Int) * q ∧
    0 < g ∧ g < n ∧ Int.gcd g n = 1 ∧ 0 < h ∧ h < n ∧ Int.gcd h n = 1 ∧ (∃ x, h = x ^ 2 % n) ∧
    (¬ ∃ k : Nat, g % n = h ^ k % n) ∧
    ∀ (H : Hashes) (reps : Int), 2 ≤ reps → reps ≤ 129000 →
      ∃ π, π.reps = reps ∧ verifyProof H g h n π = .ok () := by
  refine ⟨13, 4, wrongN, 66959, 75239, 33479, 37619, by norm_num, by norm_num, by norm_num,
    by norm_num, by norm_num, by norm_num, by norm_num, by decide, by decide, by decide, by decide,
    by decide, by decide, by decide, ⟨2, by decide⟩, not_power, fun H reps h2 h3 => ?_⟩
  obtain ⟨c, hc, -⟩ := oracle_ok H (string reps.toNat) (len := reps.toNat) (by omega)
  obtain ⟨cs, hb, -⟩ := bitsLoop_ok reps.toNat c
  refine ⟨forged reps cs, ?_, forged_ok h2 hc hb⟩
  unfold forged
  split <;> rfl

/-- **C125** fails for `VerifyParamsProof` with the least effort: a prover that hashes one string is
always believed on wrong parameters, for every number of repetitions from 2 to 511. -/
theorem C125_one_hash_fails : ∃ (g h n : Int), (¬ ∃ k : Nat, g % n = h ^ k % n) ∧
    ∀ reps : Int, 2 ≤ reps → reps ≤ 511 → ∃ prover : Prog Bytes Digest ProofOfGen,
      prover.AsksAtMost 1 ∧ ∀ (H : Hashes) (o : Bytes → Digest), (prover.run o).reps = reps ∧
        verifyProof (withSha512 H o) g h n (prover.run o) = .ok () := by
  refine ⟨13, 4, wrongN, not_power, fun reps h2 h3 => ?_⟩
  refine ⟨.ask (block (string reps.toNat)) fun y =>
    .out (forged reps (bitsLoop_ok reps.toNat (chalOf reps.toNat y : Nat)).choose), ?_, ?_⟩
  · intro y
    trivial
  · intro H o
    simp only [Prog.run]
    have := (bitsLoop_ok reps.toNat ((chalOf reps.toNat (o (block (string reps.toNat))) : Nat) : Int)).choose_spec
    refine ⟨?_, forged_ok h2 (randomOracle_two (by omega) (by omega) _) this.1⟩
    unfold forged
    split <;> rfl

/-! ### What holds -/

/-- The bits of a number are those of no other number of the same size. -/
theorem bitsLoop_inj : ∀ {k c c' : Nat} {bs : List Bool}, bitsLoop k (c : Int) = .ok bs →
    bitsLoop k (c' : Int) = .ok bs → c % 2 ^ k = c' % 2 ^ k
  | 0, c, c', bs, _, _ => by rw [pow_zero, Nat.mod_one, Nat.mod_one]
  | k + 1, c, c', bs, h, h' => by
    have hs : ∀ a : Nat, BN.rshift (a : Int) 1 = .ok ((a / 2 : Nat) : Int) := by
      intro a
      unfold BN.rshift
      rw [if_neg (by decide)]
      congr 1
    have hb : ∀ a : Nat, BN.isBitSet (a : Int) 0 = decide (a % 2 = 1) := by
      intro a
      simp [BN.isBitSet]
    simp only [bitsLoop, Res.bind_eq_ok, hs, Res.ok.injEq, exists_eq_left', Res.pure_eq] at h h'
    obtain ⟨r, h1, rfl⟩ := h
    obtain ⟨r', h1', h2⟩ := h'
    simp only [List.cons.injEq, hb, decide_eq_decide] at h2
    obtain ⟨h3, rfl⟩ := h2
    have := bitsLoop_inj h1 h1'
    rw [pow_succ, mul_comm, Nat.mod_mul, Nat.mod_mul, this]
    have : c % 2 = c' % 2 := by omega
    rw [this]

/-- The number of bytes of a number. -/
def size (x : Int) : Nat := (BN.natToBytes x.toNat).length

theorem genChallenge_eq {H : Hashes} {o : Bytes → Digest} {g h n : Int} {ds : List Int} {reps : Int}
    {b : Bytes} (hb : transcript g h n ds = .ok b) (h1 : 1 ≤ reps) (h2 : reps ≤ 511) :
    genProofChallenge (withSha512 H o) g h n ds reps =
      bitsLoop reps.toNat ((chalOf reps.toNat (o (block b)) : Nat) : Int) := by
  unfold genProofChallenge
  rw [hb, Res.ok_bind, BN.lshift, if_neg (by omega), Res.ok_bind, one_mul,
    randomOracle_two (by omega) (by omega), Res.ok_bind]

theorem power_of_two_answers {g h n : Int} (hn : 0 < n) (hg : Int.gcd h n = 1) {cs cs' : List Bool}
    {ds ss ss' : List Int} (hl : cs.length = ds.length) (hl' : cs'.length = ds.length)
    (hv : verifyLoop g h n cs ds ss = .ok ())
    (hv' : verifyLoop g h n cs' ds ss' = .ok ()) (hne : cs ≠ cs') : ∃ k : Nat, g % n = h ^ k % n := by
  obtain ⟨i, hi⟩ : ∃ i, cs[i]? ≠ cs'[i]? := by
    by_contra hc
    push Not at hc
    exact hne (List.ext_getElem? hc)
  have hi1 : i < ds.length := by
    by_contra hc
    rw [List.getElem?_eq_none (by omega), List.getElem?_eq_none (by omega)] at hi
    exact hi rfl
  have key : ∀ {cs cs' : List Bool} {ss ss' : List Int}, verifyLoop g h n cs ds ss = .ok () →
      verifyLoop g h n cs' ds ss' = .ok () → cs[i]? = some true → cs'[i]? = some false →
      ∃ k : Nat, g % n = h ^ k % n := by
    intro cs cs' ss ss' hv hv' h1 h0
    obtain ⟨s1, e1, p1, hn1, q1⟩ := verifyLoop_sound hv i true _ h1 (List.getElem?_eq_getElem hi1)
    obtain ⟨s0, e0, p0, -, q0⟩ := verifyLoop_sound hv' i false _ h0 (List.getElem?_eq_getElem hi1)
    simp only [if_true] at q1
    simp only [Bool.false_eq_true, if_false] at q0
    have key : (h ^ s0.toNat * g) % n = h ^ s1.toNat % n := by
      rw [q1, ← q0]
      exact ((Int.mod_modEq _ n).mul_right g).symm
    have : NeZero n.toNat := ⟨by omega⟩
    rw [emod_eq_iff hn] at key
    push_cast at key
    obtain ⟨k, hk⟩ := ratio_pow (isUnit_cast hn hg) key.symm
    refine ⟨k, ?_⟩
    rw [emod_eq_iff hn, hk]
    push_cast
    rfl
  have e1 := List.getElem?_eq_getElem (l := cs) (i := i) (by omega)
  have e2 := List.getElem?_eq_getElem (l := cs') (i := i) (by omega)
  rw [e1, e2] at hi
  cases h1 : cs[i] <;> cases h2 : cs'[i] <;> rw [h1] at e1 <;> rw [h2] at e2
  · rw [h1, h2] at hi; exact absurd rfl hi
  · exact key hv' hv e2 e1
  · exact key hv hv' e1 e2
  · rw [h1, h2] at hi; exact absurd rfl hi

open scoped Classical in
/-- **C125**, `VerifyParamsProof`, the part that holds: when the lengths of the first messages are
fixed beforehand (for example all those of the modulus), a prover, whatever it is able to compute,
that hashes at most `Q` strings is believed on wrong parameters with probability at most
`(Q + 1) / 2^k` for `k` repetitions.  Missing is that the lengths need not be fixed, which is false
by `C125_one_hash_fails`. -/
theorem C125_fixed_lengths_partial (g h n : Int) (hwrong : ¬ ∃ k : Nat, g % n = h ^ k % n)
    (lens : List Nat) (hk : lens.length ≤ 511)
    (H : Hashes) (B : Bytes → Digest) (D : Finset Bytes)
    (Q : Nat) (prover : Prog Bytes Digest ProofOfGen) (hQ : prover.AsksAtMost Q)
    (hD : ∀ o b, transcript g h n (prover.run o).dummyGs = .ok b → block b ∈ D) :
    prob (fun f : D → Digest =>
      verifyProof (withSha512 H (graft B D f)) g h n (prover.run (graft B D f)) = .ok () ∧
      (prover.run (graft B D f)).dummyGs.map size = lens) ≤ (Q + 1) / 2 ^ lens.length := by
  let bad : Bytes → Digest → Prop := fun x y => ∃ (b : Bytes) (cs : List Bool) (π : ProofOfGen),
    x = block b ∧ transcript g h n π.dummyGs = .ok b ∧ 0 < n ∧ Int.gcd h n = 1 ∧
    π.dummyGs.map size = lens ∧ cs.length = lens.length ∧
    bitsLoop lens.length ((chalOf lens.length y : Nat) : Int) = .ok cs ∧
    verifyLoop g h n cs π.dummyGs π.responses = .ok ()
  have hbad : ∀ x ∈ D, prob (bad x) ≤ 1 / 2 ^ lens.length := by
    intro x _
    apply prob_chal hk
    rintro y y' ⟨b, cs, π, rfl, ht, hn, hg, hs, hl, hb, hv⟩ ⟨b', cs', π', hx', ht', -, -, hs', hl', hb', hv'⟩
    have eb := block_inj hx'
    subst eb
    have ed := (C72_same_sizes_partial g h n g h n _ _ b ht ht' rfl (hs.trans hs'.symm)).2.2.2
    rw [← ed] at hv'
    have hdl : π.dummyGs.length = lens.length := by rw [← hs, List.length_map]
    have ec : cs = cs' := by
      by_contra hne
      exact hwrong (power_of_two_answers hn hg (by omega) (by omega) hv hv' hne)
    subst ec
    have := bitsLoop_inj hb hb'
    rwa [Nat.mod_eq_of_lt (chalOf_lt _ _), Nat.mod_eq_of_lt (chalOf_lt _ _)] at this
  have := search_bound bad (by positivity) (fun π : ProofOfGen =>
      match transcript g h n π.dummyGs with
      | .ok b => some (block b)
      | _ => none) prover Q D B hbad hQ
    (fun f : D → Digest =>
      verifyProof (withSha512 H (graft B D f)) g h n (prover.run (graft B D f)) = .ok () ∧
      (prover.run (graft B D f)).dummyGs.map size = lens) ?_
  · exact this.trans_eq (by ring)
  · rintro f ⟨hv, hs⟩
    obtain ⟨cs, h1, h2, h3, h4, h5, h6⟩ := verifyProof_ok hv
    have hlen : (prover.run (graft B D f)).dummyGs.length = lens.length := by
      rw [← hs, List.length_map]
    have hreps : (prover.run (graft B D f)).reps = (lens.length : Int) := by rw [← h2, hlen]
    have h5' := h5
    unfold genProofChallenge at h5'
    simp only [Res.bind_eq_ok] at h5'
    obtain ⟨b, hb, -⟩ := h5'
    have hcl := genProofChallenge_length h5
    rw [genChallenge_eq hb h1 (by omega), hreps, Int.toNat_natCast] at h5
    have hn : 0 < n := by
      have := (transcript_pos hb).2.2
      rcases this.lt_or_eq with h | h
      · exact h
      · exfalso
        obtain ⟨s, -, -, hne, -⟩ := verifyLoop_sound h6 0 (cs.getD 0 true)
          ((prover.run (graft B D f)).dummyGs.getD 0 0) (by
            rw [List.getD_eq_getElem?_getD, List.getElem?_eq_getElem (by omega)]; rfl) (by
            rw [List.getD_eq_getElem?_getD, List.getElem?_eq_getElem (by omega)]; rfl)
        exact hne h.symm
    exact ⟨_, hD _ b hb, by rw [hb], b, cs, _, rfl, hb, hn, h4, hs, by omega, h5, h6⟩

theorem trustedChallenge_eq {H : Hashes} {o : Bytes → Digest} {g h n d : Int} {len : Int}
    {b : Bytes} (hb : transcript g h n [d] = .ok b) (h1 : 1 ≤ len) (h2 : len ≤ 511) :
    trustedChallenge (withSha512 H o) g h n d len =
      .ok ((chalOf len.toNat (o (block b)) : Nat) : Int) := by
  unfold trustedChallenge
  rw [hb, Res.ok_bind, BN.lshift, if_neg (by omega), Res.ok_bind, one_mul,
    randomOracle_two (by omega) (by omega)]

/-- For one first message the hashed string tells which. -/
theorem transcript_one {g h n d d' : Int} {b : Bytes} (hb : transcript g h n [d] = .ok b)
    (hb' : transcript g h n [d'] = .ok b) : d = d' := by
  unfold transcript at hb hb'
  simp only [Res.bind_eq_ok, Res.pure_eq, Res.ok.injEq, List.mapM_cons, List.mapM_nil] at hb hb'
  obtain ⟨bg, h1, bh, h2, bn, h3, bd, ⟨x, h4, y, hy, rfl⟩, rfl⟩ := hb
  obtain ⟨bg', h1', bh', h2', bn', h3', bd', ⟨x', h4', y', hy', rfl⟩, e⟩ := hb'
  rw [h1] at h1'
  rw [h2] at h2'
  rw [h3] at h3'
  cases h1'
  cases h2'
  cases h3'
  cases hy
  cases hy'
  simp only [List.append_assoc, List.append_cancel_left_eq, List.flatten_cons, List.flatten_nil,
    List.append_nil] at e
  subst e
  unfold BN.toBytes at h4 h4'
  split at h4
  · cases h4
  · split at h4'
    · cases h4'
    · have := BN.natToBytes_injective (Res.ok.inj (h4.trans h4'.symm))
      omega

open scoped Classical in
/-- **C125**, `VerifyParamsProofForTrustedModulus`: let the modulus be a product of two safe primes,
and let `g` be a square that is not a power of `h`, or any number whose square is not.  A prover,
whatever it is able to compute, that hashes at most `Q` strings is believed with a proof with
challenges of `len` bits with probability at most `(Q + 1) / 2^len`, when the challenges are
shorter than the prime factors. -/
theorem C125_trusted (g h n : Int) (p q p' q' : Nat) (hp : p.Prime) (hq : q.Prime) (hp' : p'.Prime)
    (hq' : q'.Prime) (ep : p = 2 * p' + 1) (eq : q = 2 * q' + 1) (hne : p ≠ q)
    (hn : n = (p : Int) * q)
    (hwrong : (¬ ∃ k : Nat, g ^ 2 % n = h ^ k % n) ∨
      (∃ y : Int, g % n = y ^ 2 % n) ∧ ¬ ∃ k : Nat, g % n = h ^ k % n)
    (len : Nat) (hlen : len ≤ 511) (hlp : 2 ^ len ≤ p') (hlq : 2 ^ len ≤ q')
    (H : Hashes) (B : Bytes → Digest) (D : Finset Bytes)
    (Q : Nat) (prover : Prog Bytes Digest TrustedProof) (hQ : prover.AsksAtMost Q)
    (hD : ∀ o b, transcript g h n [(prover.run o).dummyG] = .ok b → block b ∈ D) :
    prob (fun f : D → Digest =>
      verifyTrusted (withSha512 H (graft B D f)) g h n (prover.run (graft B D f)) = .ok () ∧
      (prover.run (graft B D f)).challengeLength = len) ≤ (Q + 1) / 2 ^ len := by
  let bad : Bytes → Digest → Prop := fun x y => ∃ (b : Bytes) (K : Hashes) (π : TrustedProof),
    x = block b ∧ transcript g h n [π.dummyG] = .ok b ∧ π.challengeLength = len ∧
    verifyTrusted K g h n π = .ok () ∧
    trustedChallenge K g h n π.dummyG π.challengeLength = .ok ((chalOf len y : Nat) : Int)
  have hbad : ∀ x ∈ D, prob (bad x) ≤ 1 / 2 ^ len := by
    intro x _
    apply prob_chal hlen
    have key : ∀ {y y' : Digest}, bad x y → bad x y' → ¬ chalOf len y' < chalOf len y := by
      rintro y y' ⟨b, K, π, rfl, ht, hl, hv, hc⟩ ⟨b', K', π', hx', ht', hl', hv', hc'⟩ hlt
      have eb := block_inj hx'
      subst eb
      have ed := transcript_one ht ht'
      obtain ⟨c1, c2⟩ := C52_safe_modulus K K' g h n π π' hv hv' ed _ _ hc hc' (by exact_mod_cast hlt)
        p q p' q' hp hq hp' hq' ep eq hne hn (by rw [hl]; exact hlp) (by rw [hl]; exact hlq)
      rcases hwrong with h | ⟨⟨y, hy⟩, h⟩
      · exact h c1
      · exact h (c2 y hy)
    intro y y' h1 h2
    have := key h1 h2
    have := key h2 h1
    omega
  have := search_bound bad (by positivity) (fun π : TrustedProof =>
      match transcript g h n [π.dummyG] with
      | .ok b => some (block b)
      | _ => none) prover Q D B hbad hQ
    (fun f : D → Digest =>
      verifyTrusted (withSha512 H (graft B D f)) g h n (prover.run (graft B D f)) = .ok () ∧
      (prover.run (graft B D f)).challengeLength = len) ?_
  · exact this.trans_eq (by ring)
  · rintro f ⟨hv, hl⟩
    obtain ⟨c, -, -, hc, -, -, -, -⟩ := verifyTrusted_ok hv
    have h1 : 1 ≤ len := by
      by_contra h0
      have : (prover.run (graft B D f)).challengeLength ≤ 0 := by omega
      unfold verifyTrusted at hv
      rw [if_pos this] at hv
      cases hv
    have hc' := hc
    unfold trustedChallenge at hc'
    simp only [Res.bind_eq_ok] at hc'
    obtain ⟨b, hb, -⟩ := hc'
    have e := trustedChallenge_eq (H := H) (o := graft B D f) (len := len) hb (by omega) (by omega)
    rw [Int.toNat_natCast] at e
    exact ⟨_, hD _ b hb, by rw [hb], b, _, _, rfl, hb, hl, hv, by rw [hl]; exact e⟩

/-! ### The bounds are reached

Modulo 77 = (2 * 3 + 1) * (2 * 5 + 1), the square 4 is not a power of 15.  A prover that hashes
nothing and hopes for the challenge 0 is believed with probability 1/2. -/

theorem toy_wrong : ¬ ∃ k : Nat, (4 : Int) % 77 = 15 ^ k % 77 := by
  rintro ⟨k, hk⟩
  have h1 : (4 : Int) ≡ 15 ^ k [ZMOD 7] := Int.ModEq.of_dvd (by decide) hk
  have h2 : (15 : Int) ^ k ≡ 1 ^ k [ZMOD 7] := Int.ModEq.pow k (by decide)
  rw [one_pow] at h2
  exact absurd (h1.trans h2) (by decide)

theorem toy_transcript : transcript 4 15 77 [15] = .ok [4, 15, 77, 15] := by decide +kernel

theorem half (X : Bytes) : ∀ S : (({X} : Finset Bytes) → Digest) → Prop, ∀ [DecidablePred S],
    (∀ f, S f ↔ chalOf 1 (f ⟨X, Finset.mem_singleton_self _⟩) = 0) → prob S = 1 / 2 := by
  intro S _ hS
  rw [← RomSound.half_of_le (S := fun d => chalOf 1 d = 0) (fun d d' h1 h2 => by rw [h1, h2])
      (fun d d' h1 h2 => by
        have l1 := chalOf_lt 1 d
        have l2 := chalOf_lt 1 d'
        omega), ← prob_at (Finset.mem_singleton_self X) fun d => chalOf 1 d = 0]
  exact prob_congr hS

open scoped Classical in
/-- The bound of `C125_fixed_lengths_partial` is reached. -/
theorem C125_fixed_lengths_reached : ∃ (D : Finset Bytes) (prover : Prog Bytes Digest ProofOfGen),
    (¬ ∃ k : Nat, (4 : Int) % 77 = 15 ^ k % 77) ∧ prover.AsksAtMost 0 ∧
    (∀ o b, transcript 4 15 77 (prover.run o).dummyGs = .ok b → block b ∈ D) ∧
    ∀ (H : Hashes) (B : Bytes → Digest), prob (fun f : D → Digest =>
      verifyProof (withSha512 H (graft B D f)) 4 15 77 (prover.run (graft B D f)) = .ok () ∧
      (prover.run (graft B D f)).dummyGs.map size = [1]) =
      (((0 : Nat) : ℚ) + 1) / 2 ^ [1].length := by
  refine ⟨{block [4, 15, 77, 15]}, .out ⟨1, [15], [1]⟩, toy_wrong, trivial, ?_, ?_⟩
  · intro o b hb
    simp only [Prog.run] at hb
    rw [toy_transcript] at hb
    cases hb
    exact Finset.mem_singleton_self _
  · intro H B
    refine (half (block [4, 15, 77, 15]) _ fun f => ?_).trans (by norm_num)
    have hs : [(15 : Int)].map size = [1] := by decide +kernel
    simp only [Prog.run, hs, and_true]
    have e := genChallenge_eq (H := H) (o := graft B {block [4, 15, 77, 15]} f) (reps := 1)
      toy_transcript (by decide) (by decide)
    have e2 := graft_mem B (Finset.mem_singleton_self (block [4, 15, 77, 15])) f
    rw [e2, show Int.toNat 1 = 1 from rfl] at e
    have l := chalOf_lt 1 (f ⟨_, Finset.mem_singleton_self (block [4, 15, 77, 15])⟩)
    unfold verifyProof
    simp only
    rw [if_neg (by decide), if_neg (by decide), if_neg (by decide), if_neg (by decide), e]
    clear e e2
    generalize chalOf 1 (f ⟨_, Finset.mem_singleton_self (block [4, 15, 77, 15])⟩) = c at l ⊢
    have : c = 0 ∨ c = 1 := by omega
    rcases this with rfl | rfl <;> decide +kernel

open scoped Classical in
/-- The bound of `C125_trusted` is reached. -/
theorem C125_trusted_reached : ∃ (D : Finset Bytes) (prover : Prog Bytes Digest TrustedProof),
    (∃ y : Int, (4 : Int) % 77 = y ^ 2 % 77) ∧ (¬ ∃ k : Nat, (4 : Int) % 77 = 15 ^ k % 77) ∧
    Nat.Prime 7 ∧ Nat.Prime 11 ∧ Nat.Prime 3 ∧ Nat.Prime 5 ∧ 2 ^ 1 ≤ 3 ∧ prover.AsksAtMost 0 ∧
    (∀ o b, transcript 4 15 77 [(prover.run o).dummyG] = .ok b → block b ∈ D) ∧
    ∀ (H : Hashes) (B : Bytes → Digest), prob (fun f : D → Digest =>
      verifyTrusted (withSha512 H (graft B D f)) 4 15 77 (prover.run (graft B D f)) = .ok () ∧
      (prover.run (graft B D f)).challengeLength = (1 : Nat)) =
      (((0 : Nat) : ℚ) + 1) / 2 ^ 1 := by
  refine ⟨{block [4, 15, 77, 15]}, .out ⟨1, 15, 1⟩, ⟨2, by decide⟩, toy_wrong, by norm_num,
    by norm_num, by norm_num, by norm_num, by norm_num, trivial, ?_, ?_⟩
  · intro o b hb
    simp only [Prog.run] at hb
    rw [toy_transcript] at hb
    cases hb
    exact Finset.mem_singleton_self _
  · intro H B
    refine (half (block [4, 15, 77, 15]) _ fun f => ?_).trans (by norm_num)
    simp only [Prog.run, Nat.cast_one, and_true]
    have e := trustedChallenge_eq (H := H) (o := graft B {block [4, 15, 77, 15]} f) (len := 1)
      toy_transcript (by decide) (by decide)
    have e2 := graft_mem B (Finset.mem_singleton_self (block [4, 15, 77, 15])) f
    rw [e2, show Int.toNat 1 = 1 from rfl] at e
    have l := chalOf_lt 1 (f ⟨_, Finset.mem_singleton_self (block [4, 15, 77, 15])⟩)
    unfold verifyTrusted
    simp only
    rw [if_neg (by decide), if_neg (by decide), e]
    clear e e2
    generalize chalOf 1 (f ⟨_, Finset.mem_singleton_self (block [4, 15, 77, 15])⟩) = c at l ⊢
    have : c = 0 ∨ c = 1 := by omega
    rcases this with rfl | rfl <;> decide +kernel

/-! ### The proof for trusted moduli does not tell `h` from `-h` -/

theorem even_or_odd_accepts {H : Hashes} {o : Bytes → Digest} {n h d : Int} {len : Int} {b : Bytes}
    (hn : 1 < n) (hg : Int.gcd h n = 1) (hb : transcript (n - h) h n [d] = .ok b) (h1 : 1 ≤ len)
    (h2 : len ≤ 511) (hd : d ≡ (-1) ^ chalOf len.toNat (o (block b)) [ZMOD n]) :
    verifyTrusted (withSha512 H o) (n - h) h n
      ⟨len, d, ((chalOf len.toNat (o (block b)) : Nat) : Int)⟩ = .ok () := by
  unfold verifyTrusted
  simp only
  rw [if_neg (by omega), if_neg (by simpa [BN.gcd] using hg), trustedChallenge_eq hb h1 h2,
    Res.ok_bind]
  generalize chalOf len.toNat (o (block b)) = c at hd
  unfold BN.modExp BN.modMul BN.mod
  rw [if_neg (by omega), if_neg (by omega), Res.ok_bind, if_neg (by omega), if_neg (by omega),
    Res.ok_bind, if_neg (by omega), Res.ok_bind, Int.toNat_natCast, if_neg]
  rw [not_not]
  have e1 : (n - h) ^ c ≡ (-h) ^ c [ZMOD n] := Int.ModEq.pow c (by
    rw [Int.modEq_iff_dvd]
    exact ⟨-1, by ring⟩)
  have e2 : (n - h) ^ c % n * d ≡ (-h) ^ c * (-1) ^ c [ZMOD n] :=
    ((Int.mod_modEq _ n).trans e1).mul hd
  have e3 : (-h) ^ c * (-1) ^ c = h ^ c := by rw [← mul_pow]; simp
  rw [e3] at e2
  exact e2.symm

open scoped Classical in
theorem half_or_half {α : Type} [Fintype α] [Nonempty α] (S : α → Prop) :
    1 / 2 ≤ prob S ∨ 1 / 2 ≤ prob fun a => ¬ S a := by
  have h := prob_add_prob_not S
  by_contra hc
  push Not at hc
  have e : prob (fun a => ¬ S a) < 1 / 2 := (prob_congr fun _ => Iff.rfl).trans_lt hc.2
  linarith [hc.1]

open scoped Classical in
/-- **C125** fails for `VerifyParamsProofForTrustedModulus` when `g` is not known to be a square: let
a prime factor of the modulus leave the remainder 3 modulo 4, as those of a product of safe primes
do, and let `h` be a square as an honest `h` is.  Then `n - h` is not a power of `h`, and however long
the challenges are, a prover that hashes one string is believed with probability at least 1/2. -/
theorem C125_trusted_fails (n h x : Int) (p : Nat) (hp : p.Prime) (hp4 : p % 4 = 3)
    (hpn : (p : Int) ∣ n) (hh : 0 < h) (hhn : h < n) (hg : Int.gcd h n = 1) (hx : h = x ^ 2 % n) :
    (¬ ∃ k : Nat, (n - h) % n = h ^ k % n) ∧
    ∀ len : Int, 1 ≤ len → len ≤ 511 → ∃ (D : Finset Bytes) (prover : Prog Bytes Digest TrustedProof),
      prover.AsksAtMost 1 ∧
      ∀ (H : Hashes) (B : Bytes → Digest), 1 / 2 ≤ prob (fun f : D → Digest =>
        verifyTrusted (withSha512 H (graft B D f)) (n - h) h n (prover.run (graft B D f)) = .ok () ∧
        (prover.run (graft B D f)).challengeLength = len) := by
  constructor
  · rintro ⟨k, hk⟩
    have : Fact p.Prime := ⟨hp⟩
    have e1 : n - h ≡ h ^ k [ZMOD p] := Int.ModEq.of_dvd hpn hk
    have e2 : h ≡ x ^ 2 [ZMOD p] := Int.ModEq.of_dvd hpn (by rw [hx]; exact Int.mod_modEq _ _)
    have e3 := (ZMod.intCast_eq_intCast_iff _ _ _).2 e1
    have e4 := (ZMod.intCast_eq_intCast_iff _ _ _).2 e2
    have e5 : ((n : Int) : ZMod p) = 0 := (ZMod.intCast_zmod_eq_zero_iff_dvd _ _).2 hpn
    push_cast at e3 e4
    rw [e5, zero_sub, e4] at e3
    have hx0 : (x : ZMod p) ≠ 0 := by
      intro h0
      rw [h0] at e4
      have h1 : (p : Int) ∣ h := (ZMod.intCast_zmod_eq_zero_iff_dvd _ _).1 (by rw [e4]; simp)
      have h2 := Int.dvd_coe_gcd h1 hpn
      rw [hg] at h2
      have := Int.le_of_dvd (by norm_num) h2
      have := hp.two_le
      omega
    have hsq : IsSquare (-1 : ZMod p) := by
      refine ⟨(x : ZMod p) ^ k * (x : ZMod p)⁻¹, ?_⟩
      field_simp
      rw [← pow_mul, mul_comm k 2, pow_mul, ← e3]
    rw [ZMod.exists_sq_eq_neg_one_iff] at hsq
    exact hsq hp4
  · intro len h1 h2
    obtain ⟨b0, hb0⟩ := transcript_ok (g := n - h) (h := h) (n := n) (ds := [1]) (by omega) hh.le
      (by omega) (by simp)
    obtain ⟨b1, hb1⟩ := transcript_ok (g := n - h) (h := h) (n := n) (ds := [n - 1]) (by omega) hh.le
      (by omega) (by simp; omega)
    have acc : ∀ (b : Bytes) (d : Int), transcript (n - h) h n [d] = .ok b → ∀ (S : Digest → Prop) [DecidablePred S],
        (∀ y, S y → d ≡ (-1) ^ chalOf len.toNat y [ZMOD n]) → 1 / 2 ≤ prob S →
        ∃ (D : Finset Bytes) (prover : Prog Bytes Digest TrustedProof),
        prover.AsksAtMost 1 ∧
        ∀ (H : Hashes) (B : Bytes → Digest), 1 / 2 ≤ prob (fun f : D → Digest =>
          verifyTrusted (withSha512 H (graft B D f)) (n - h) h n (prover.run (graft B D f)) = .ok () ∧
          (prover.run (graft B D f)).challengeLength = len) := by
      intro b d hb S _ hS hle
      refine ⟨{block b}, .ask (block b) fun y => .out ⟨len, d, ((chalOf len.toNat y : Nat) : Int)⟩,
        fun y => trivial, fun H B => ?_⟩
      rw [← prob_at (Finset.mem_singleton_self (block b)) S] at hle
      refine hle.trans (prob_mono fun f hf => ?_)
      simp only [Prog.run, and_true]
      exact even_or_odd_accepts (by omega) hg hb h1 h2 (by
        rw [graft_mem B (Finset.mem_singleton_self (block b)) f]
        exact hS _ hf)
    obtain ⟨S, hS⟩ : ∃ S : Digest → Prop, ∀ y, S y ↔ Even (chalOf len.toNat y) :=
      ⟨fun y => Even (chalOf len.toNat y), fun _ => Iff.rfl⟩
    rcases half_or_half S with hc | hc
    · refine acc b0 1 hb0 S (fun y hy => ?_) hc
      rw [((hS y).1 hy).neg_one_pow]
    · refine acc b1 (n - 1) hb1 (fun y => ¬ S y) (fun y hy => ?_) hc
      rw [(Nat.not_even_iff_odd.1 fun h => hy ((hS y).2 h)).neg_one_pow, Int.modEq_iff_dvd]
      exact ⟨-1, by ring⟩

example : ∃ (D : Finset Bytes) (prover : Prog Bytes Digest TrustedProof), prover.AsksAtMost 1 ∧
    ∀ (H : Hashes) (B : Bytes → Digest), 1 / 2 ≤ prob (fun f : D → Digest =>
      open scoped Classical in
      verifyTrusted (withSha512 H (graft B D f)) (wrongN - 4) 4 wrongN (prover.run (graft B D f)) = .ok () ∧
      (prover.run (graft B D f)).challengeLength = 128) :=
  (C125_trusted_fails wrongN 4 2 66959 (by norm_num) (by norm_num) (by decide) (by decide) (by decide)
    (by decide) (by decide)).2 128 (by decide) (by decide)

end PJC.PedRom
