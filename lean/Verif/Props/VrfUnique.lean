import Verif.Props.PedBind
import Verif.Props.DyVrf
import Verif.Props.RomKnow
import Verif.Lemmas.Fork2
/-
Property C131: with one public key and one commitment to messages, only one list of evaluations can
be proved, unless the modulus can be factored.
-/
namespace PJC.VrfUnique
open PJC PJC.Ped PJC.Vrf PJC.Prob PJC.SafeFactor PJC.PedBind PJC.Props PJC.Oracle
  PJC.RomSound PJC.RomKnow Classical

variable {G : Type} [AddCommGroup G] [DecidableEq G]

/-- Evaluations with two proofs, checked with two hash functions. -/
structure Claim (G : Type) where
  evals : List G
  H : Hashes
  H' : Hashes
  π : VrfApplyProof
  π' : VrfApplyProof

/-- Both proofs are accepted, they have the same first message and their challenges differ (modulo
the order of the curve): what running a successful prover twice gives (C124). -/
structure Proved (v : DyVrf G) (pk : Bytes) (cm : Int) (K : Claim G) : Prop where
  acc : verifyApplyProof K.H v K.evals pk cm K.π = .ok ()
  acc' : verifyApplyProof K.H' v K.evals pk cm K.π' = .ok ()
  same : K.π.commitDummy = K.π'.commitDummy ∧ K.π.dummyGs = K.π'.dummyGs
  diff : ∀ c c', applyChallenge K.H v K.evals pk cm K.π.commitDummy K.π.dummyGs = .ok c →
    applyChallenge K.H' v K.evals pk cm K.π'.commitDummy K.π'.dummyGs = .ok c' →
    ¬ (v.group.order : Int) ∣ c - c'

/-- Who is given the Pedersen parameters and coins, and returns a public key, a commitment to
messages and two claims. -/
abbrev Equivocator (G C : Type) := List Int → Int → Int → C → Bytes × Int × Claim G × Claim G

/-- Both claims are proved although the evaluations differ at some place. -/
def Equivocates (v : DyVrf G) (o : Bytes × Int × Claim G × Claim G) : Prop :=
  Proved v o.1 o.2.1 o.2.2.1 ∧ Proved v o.1 o.2.1 o.2.2.2 ∧
    ∃ (i : Nat) (σ σ' : G), o.2.2.1.evals[i]? = some σ ∧ o.2.2.2.evals[i]? = some σ' ∧ σ ≠ σ'

/-- The probability of that with fresh Pedersen parameters. -/
noncomputable def equivProb (n k kk : Nat) [NeZero n] (vp : VrfParams) (E : EcGroup G) {C : Type}
    [Fintype C] (A : Equivocator G C) : ℚ :=
  prob fun s : (ZMod n)ˣ × (Fin k → Fin (n / 4)) × C =>
    ∃ P ped v, generateParameters n (s.1.val.val : Int) (List.ofFn fun i => (s.2.1 i).val) = .ok P ∧
      Ped.create P.gs P.h P.n kk = .ok ped ∧ Vrf.create vp E ped = .ok v ∧
      Equivocates v (A P.gs P.h P.n s.2.2)

/-- The challenges of a claim. -/
def chals (v : DyVrf G) (pk : Bytes) (cm : Int) (K : Claim G) : Res (Int × Int) := do
  let c ← applyChallenge K.H v K.evals pk cm K.π.commitDummy K.π.dummyGs
  let c' ← applyChallenge K.H' v K.evals pk cm K.π'.commitDummy K.π'.dummyGs
  return (c, c')

/-- The difference of the masked values. -/
def dz (K : Claim G) (i : Nat) : Int :=
  (parseBigNumVectorProto K.π.masked).getD i 0 - (parseBigNumVectorProto K.π'.masked).getD i 0

/-- The difference of the masked openings. -/
def dr (K : Claim G) : Int := BN.ofBytes K.π.maskedOpening - BN.ofBytes K.π'.maskedOpening

/-- The exponents at which the two claims disagree. -/
def relE (K L : Claim G) (c d : Int × Int) (i : Nat) : Int :=
  (d.1 - d.2) * dz K i - (c.1 - c.2) * dz L i

def relF (K L : Claim G) (c d : Int × Int) : Int := (d.1 - d.2) * dr K - (c.1 - c.2) * dr L

/-- The two openings: positive and negative parts. -/
def openPos (k : Nat) (K L : Claim G) (c d : Int × Int) : Opening :=
  (List.ofFn fun i : Fin k => max (relE K L c d i) 0, max (relF K L c d) 0)

def openNeg (k : Nat) (K L : Claim G) (c d : Int × Int) : Opening :=
  (List.ofFn fun i : Fin k => max (-relE K L c d i) 0, max (-relF K L c d) 0)

/-- The algorithm that opens a commitment twice: it runs the equivocator, computes the four
challenges, and commits to the positive parts. -/
def toBreaker (vp : VrfParams) (E : EcGroup G) (kk : Nat) {C : Type} (A : Equivocator G C) : Breaker C :=
  fun gs h n coins =>
    let o := A gs h n coins
    let run : Res (Int × Opening × Opening) := do
      let ped ← Ped.create gs h n kk
      let v ← Vrf.create vp E ped
      let c ← chals v o.1 o.2.1 o.2.2.1
      let d ← chals v o.1 o.2.1 o.2.2.2
      let p := openPos gs.length o.2.2.1 o.2.2.2 c d
      let cm ← Ped.commitWithRand ped p.1 p.2
      return (cm, p, openNeg gs.length o.2.2.1 o.2.2.2 c d)
    match run with
    | .ok r => r
    | _ => (0, ([], 0), ([], 0))

section
variable {h n : Int} {k : Nat} {w : Fin k → Nat} {v : DyVrf G}

theorem challenge_nonneg (M : Made gs h n v) {H : Hashes} {es : List G} {pk : Bytes} {cm : Int}
    {d : Bytes} {ds : List Bytes} {c : Int} (hc : applyChallenge H v es pk cm d ds = .ok c) : 0 ≤ c := by
  obtain ⟨-, h0, -⟩ := M.pos
  unfold applyChallenge at hc
  simp only [Res.bind_eq_ok] at hc
  obtain ⟨_, _, _, _, b, hb, hr⟩ := hc
  rw [M.chalBound] at hb
  cases hb
  exact (oracle_nonneg hr).1

/-- In the units: the product of public key and commitment, to the difference of the challenges, is
the power of `h` given by the differences of the masked values. -/
theorem claim_relation (M : Made (List.ofFn fun i => h ^ w i % n) h n v) {pk : Bytes} {cm : Int}
    {K : Claim G} (hK : Proved v pk cm K) {U : (ZMod n.toNat)ˣ} (hU : (U : ZMod n.toNat) = (h : Int)) :
    ∃ c : Int × Int, chals v pk cm K = .ok c ∧ ¬ (v.group.order : Int) ∣ c.1 - c.2 ∧
      (∀ (i : Nat) (σ : G), K.evals[i]? = some σ → i < k ∧ dz K i • σ = (c.1 - c.2) • v.base) ∧
      IsUnit ((cm * BN.ofBytes pk : Int) : ZMod n.toNat) ∧
      ∀ X : (ZMod n.toNat)ˣ, (X : ZMod n.toNat) = ((cm * BN.ofBytes pk : Int) : ZMod n.toNat) →
        X ^ (c.1 - c.2) = U ^ (∑ i : Fin k, (w i : Int) * dz K i + dr K) := by
  have hn := M.n1
  obtain ⟨ds, c, hds, hl, hl2, hl3, hc, hb, hloop, hcom⟩ := (verifyApply_iff M K.H K.evals pk K.π).1 hK.acc
  obtain ⟨ds', c', hds', -, hl2', hl3', hc', hb', hloop', hcom'⟩ :=
    (verifyApply_iff M K.H' K.evals pk K.π').1 hK.acc'
  have hd := hK.diff c c' hc hc'
  have c0 := challenge_nonneg M hc
  have c0' := challenge_nonneg M hc'
  obtain ⟨s1, s2, s3, s4, s5⟩ := C59_special_soundness M K.H K.H' K.evals pk cm K.π K.π' hK.acc hK.acc'
    hK.same c c' hc hc'
  have b1 := C59_bounded M K.H K.evals pk cm K.π hK.acc
  have b2 := C59_bounded M K.H' K.evals pk cm K.π' hK.acc'
  rw [List.length_ofFn] at s1 s2 s3
  obtain ⟨e, he, hce⟩ := commit_exp hn w s1.le (fun z hz => (b1 z hz).1) (BN.ofBytes_nonneg K.π.maskedOpening)
    (h := h)
  obtain ⟨e', he', hce'⟩ := commit_exp hn w s2.le (fun z hz => (b2 z hz).1)
    (BN.ofBytes_nonneg K.π'.maskedOpening) (h := h)
  have nn : ((n.toNat : ℕ) : Int) = n := Int.toNat_of_nonneg (by omega)
  have castmod : ∀ a : Int, ((a % n : Int) : ZMod n.toNat) = (a : ZMod n.toNat) := by
    intro a
    rw [ZMod.intCast_eq_intCast_iff, nn]
    exact Int.mod_modEq _ _
  have castP : ∀ j : Nat, ((h ^ j % n : Int) : ZMod n.toNat) = ((U ^ j : (ZMod n.toNat)ˣ) : ZMod n.toNat) := by
    intro j
    rw [castmod]
    push_cast
    rw [hU]
  refine ⟨(c, c'), by simp [chals, hc, hc'], hd, ?_, ?_, ?_⟩
  · intro i σ hσ
    have hi : i < K.evals.length := (List.getElem?_eq_some_iff.1 hσ).1
    refine ⟨by omega, s4 i σ _ _ hσ (getElem?_getD 0 (by omega)) (getElem?_getD 0 (by omega))⟩
  · have hu : ∀ (j a : Nat) (d : Int), h ^ j % n = d * ((cm * BN.ofBytes pk % n) ^ a % n) % n → a ≠ 0 →
        IsUnit ((cm * BN.ofBytes pk : Int) : ZMod n.toNat) := by
      intro j a d hj ha
      have h1 := congrArg (fun z : Int => (z : ZMod n.toNat)) hj
      rw [castP, castmod, Int.cast_mul, castmod, Int.cast_pow, castmod] at h1
      have h2 : IsUnit ((d : ZMod n.toNat) * ((cm * BN.ofBytes pk : Int) : ZMod n.toNat) ^ a) := by
        rw [← h1]
        exact Units.isUnit _
      exact (isUnit_pow_iff ha).1 (isUnit_of_mul_isUnit_right h2)
    rw [hce] at hcom
    rw [hce'] at hcom'
    by_cases h0 : c.toNat = 0
    · refine hu e' c'.toNat _ hcom' fun h0' => hd ?_
      have : c - c' = 0 := by omega
      rw [this]
      exact dvd_zero _
    · exact hu e c.toNat _ hcom h0
  · intro X hX
    have castEq : ∀ a b : Int, a ≡ b [ZMOD n] → (a : ZMod n.toNat) = (b : ZMod n.toNat) := fun a b hab => by
      rw [ZMod.intCast_eq_intCast_iff, nn]
      exact hab
    have h1 := castEq _ _ s5
    rw [hce, hce', Int.cast_mul, Int.cast_mul, castP, castP, Int.cast_pow, Int.cast_pow, ← hX] at h1
    have h2 : U ^ e * X ^ c'.toNat = U ^ e' * X ^ c.toNat := by
      apply Units.ext
      push_cast
      exact h1
    have h3 : U ^ (e : Int) * X ^ c' = U ^ (e' : Int) * X ^ c := by
      have := h2
      rw [← zpow_natCast, ← zpow_natCast, ← zpow_natCast, ← zpow_natCast, Int.toNat_of_nonneg c0,
        Int.toNat_of_nonneg c0'] at this
      exact this
    have h4 : X ^ (c - c') = U ^ ((e : Int) - e') := by
      rw [zpow_sub, zpow_sub, mul_inv_eq_iff_eq_mul, mul_right_comm, eq_mul_inv_iff_mul_eq, mul_comm, ← h3]
    show X ^ (c - c') = _
    rw [h4, he, he']
    congr 1
    unfold dz dr
    simp only [mul_sub, Finset.sum_sub_distrib]
    ring

theorem getD_ofFn {a : Fin k → Int} (i : Fin k) : (List.ofFn a).getD i 0 = a i := by
  simp [List.getD_eq_getElem?_getD]

theorem made_of {kk : Nat} (hk : 1 ≤ kk) (hk' : kk < 31) {vp : VrfParams} {E : EcGroup G}
    (hE : E.Lawful) (hch : vp.chal ≤ 129000) (hse : vp.sec ≤ 2 ^ 30) (hn : 1 < n) (hh : Int.gcd h n = 1)
    {ped : Pedersen} (hp : Ped.create (List.ofFn fun i => h ^ w i % n) h n kk = .ok ped)
    (hv : Vrf.create vp E ped = .ok v) :
    Made (List.ofFn fun i => h ^ w i % n) h n v ∧ v.params = vp ∧ v.group = E ∧ v.ped = ped := by
  have hvv : v.params = vp ∧ v.group = E ∧ v.ped = ped := by
    unfold Vrf.create at hv
    split at hv
    · cases hv
    split at hv
    · cases hv
    simp only [Res.bind_eq_ok] at hv
    obtain ⟨g, -, hg⟩ := hv
    cases hg
    exact ⟨rfl, rfl, rfl⟩
  refine ⟨?_, hvv⟩
  · refine ⟨by rw [hvv.2.1]; exact hE, hn, ?_, hh, ⟨kk, hk, hk', by rw [hvv.2.2]; exact hp⟩, ?_,
      by rw [hvv.1]; exact hch, by rw [hvv.1]; exact hse⟩
    · intro g hg
      obtain ⟨i, rfl⟩ := List.mem_ofFn.1 hg
      exact gcd_pow_emod hh _
    · rw [hvv.1, hvv.2.1, hvv.2.2]; exact hv

/-- **C131**, one run: two claims with different evaluations give two openings. -/
theorem opens_twice {C : Type} {kk : Nat} (hk : 1 ≤ kk) (hk' : kk < 31) {vp : VrfParams} {E : EcGroup G}
    (hE : E.Lawful) (hch : vp.chal ≤ 129000) (hse : vp.sec ≤ 2 ^ 30) (A : Equivocator G C)
    (hn : 1 < n) (hh : Int.gcd h n = 1) (coins : C) {ped : Pedersen}
    (hp : Ped.create (List.ofFn fun i => h ^ w i % n) h n kk = .ok ped) (hv : Vrf.create vp E ped = .ok v)
    (he : Equivocates v (A (List.ofFn fun i => h ^ w i % n) h n coins)) :
    OpensTwice (toBreaker vp E kk A) kk (List.ofFn fun i => h ^ w i % n) h n coins := by
  obtain ⟨M, hvv⟩ := made_of hk hk' hE hch hse hn hh hp hv
  have Gd := M.good
  rw [hvv.2.2] at Gd
  obtain ⟨U, hU⟩ := isUnit_cast (by omega : 0 < n) hh
  set o := A (List.ofFn fun i => h ^ w i % n) h n coins with ho
  obtain ⟨hK, hL, i, σ, σ', hσ, hσ', hne⟩ := he
  obtain ⟨c, hc, cne, cev, cu, crel⟩ := claim_relation M hK hU
  obtain ⟨d, hd, dne, dev, -, drel⟩ := claim_relation M hL hU
  obtain ⟨X, hX⟩ := cu
  have rel : U ^ (∑ i : Fin k, (w i : Int) * relE o.2.2.1 o.2.2.2 c d i + relF o.2.2.1 o.2.2.2 c d) = 1 := by
    have e : ∑ i : Fin k, (w i : Int) * relE o.2.2.1 o.2.2.2 c d i + relF o.2.2.1 o.2.2.2 c d =
        (∑ i : Fin k, (w i : Int) * dz o.2.2.1 i + dr o.2.2.1) * (d.1 - d.2) -
        (∑ i : Fin k, (w i : Int) * dz o.2.2.2 i + dr o.2.2.2) * (c.1 - c.2) := by
      unfold relE relF
      simp only [mul_sub, Finset.sum_sub_distrib, add_mul, Finset.sum_mul]
      have r1 : ∀ i : Fin k, (w i : Int) * ((d.1 - d.2) * dz o.2.2.1 i) =
        (w i : Int) * dz o.2.2.1 i * d.1 - (w i : Int) * dz o.2.2.1 i * d.2 := fun i => by ring
      have r2 : ∀ i : Fin k, (w i : Int) * ((c.1 - c.2) * dz o.2.2.2 i) =
        (w i : Int) * dz o.2.2.2 i * c.1 - (w i : Int) * dz o.2.2.2 i * c.2 := fun i => by ring
      simp only [r1, r2, Finset.sum_sub_distrib]
      ring
    rw [e, zpow_sub, zpow_mul, zpow_mul, ← crel X hX, ← drel X hX, ← zpow_mul, ← zpow_mul,
      mul_comm (c.1 - c.2), mul_inv_cancel]
  -- the two openings
  have lens : (List.ofFn fun i => h ^ w i % n).length = k := by simp
  have v1 : Valid (List.ofFn fun i => h ^ w i % n) (openPos k o.2.2.1 o.2.2.2 c d).1
      (openPos k o.2.2.1 o.2.2.2 c d).2 := by
    refine ⟨by simp [openPos], ?_, le_max_right _ _⟩
    intro m hm
    obtain ⟨i, rfl⟩ := List.mem_ofFn.1 hm
    exact le_max_right _ _
  have v2 : Valid (List.ofFn fun i => h ^ w i % n) (openNeg k o.2.2.1 o.2.2.2 c d).1
      (openNeg k o.2.2.1 o.2.2.2 c d).2 := by
    refine ⟨by simp [openNeg], ?_, le_max_right _ _⟩
    intro m hm
    obtain ⟨i, rfl⟩ := List.mem_ofFn.1 hm
    exact le_max_right _ _
  obtain ⟨e1, he1, hc1⟩ := commit_exp hn w (by simp [openPos]) v1.2 v1.3 (h := h)
  obtain ⟨e2, he2, hc2⟩ := commit_exp hn w (by simp [openNeg]) v2.2 v2.3 (h := h)
  have hsub : (e1 : Int) - e2 = ∑ i : Fin k, (w i : Int) * relE o.2.2.1 o.2.2.2 c d i +
      relF o.2.2.1 o.2.2.2 c d := by
    rw [he1, he2]
    simp only [openPos, openNeg, getD_ofFn]
    have hm : ∀ a : Int, max a 0 - max (-a) 0 = a := fun a => by omega
    rw [add_sub_add_comm, ← Finset.sum_sub_distrib, hm]
    congr 1
    refine Finset.sum_congr rfl fun i _ => ?_
    rw [← mul_sub, hm]
  have same : h ^ e1 % n = h ^ e2 % n := by
    rw [← hsub, zpow_sub, mul_inv_eq_one, zpow_natCast, zpow_natCast] at rel
    have h1 := congrArg (Units.val) rel
    push_cast at h1
    rw [hU] at h1
    rw [emod_eq_iff (by omega)]
    push_cast
    exact h1
  have hrun : toBreaker vp E kk A (List.ofFn fun i => h ^ w i % n) h n coins =
      (h ^ e1 % n, openPos k o.2.2.1 o.2.2.2 c d, openNeg k o.2.2.1 o.2.2.2 c d) := by
    unfold toBreaker
    simp only [← ho, hp, Res.ok_bind, hv, hc, hd, lens]
    rw [Gd.commit v1, Res.ok_bind, hc1]
    rfl
  unfold OpensTwice
  rw [hrun]
  refine ⟨ped, hp, ?_, ?_, i, ?_⟩
  · rw [Gd.verify v1, hc1]; simp
  · rw [Gd.verify v2, hc2, same]; simp
  · obtain ⟨hi, ev⟩ := cev i σ hσ
    obtain ⟨-, ev'⟩ := dev i σ' hσ'
    intro heq
    have g1 := getD_ofFn (a := fun i : Fin k => max (relE o.2.2.1 o.2.2.2 c d i) 0) ⟨i, hi⟩
    have g2 := getD_ofFn (a := fun i : Fin k => max (-relE o.2.2.1 o.2.2.2 c d i) 0) ⟨i, hi⟩
    have hz : relE o.2.2.1 o.2.2.2 c d i = 0 := by
      have : max (relE o.2.2.1 o.2.2.2 c d i) 0 = max (-relE o.2.2.1 o.2.2.2 c d i) 0 := by
        rw [← g1, ← g2]; exact heq
      omega
    unfold relE at hz
    have hz' : (d.1 - d.2) * dz o.2.2.1 i = (c.1 - c.2) * dz o.2.2.2 i := by omega
    have t1 : ((d.1 - d.2) * dz o.2.2.1 i) • σ = ((d.1 - d.2) * (c.1 - c.2)) • v.base := by
      rw [mul_zsmul, ev, ← mul_zsmul]
    have t2 : ((d.1 - d.2) * dz o.2.2.1 i) • σ' = ((d.1 - d.2) * (c.1 - c.2)) • v.base := by
      rw [hz', mul_zsmul, ev', ← mul_zsmul, mul_comm]
    have hpr : Prime ((v.group.order : ℕ) : Int) := Nat.prime_iff_prime_int.1 M.lawful.prime
    have hdc : ¬ (v.group.order : Int) ∣ (d.1 - d.2) * (c.1 - c.2) := fun hdv =>
      (hpr.dvd_or_dvd hdv).elim dne cne
    have hnz := M.lawful.zsmul_ne hdc M.pos.2.2
    have hdt : ¬ (v.group.order : Int) ∣ (d.1 - d.2) * dz o.2.2.1 i := by
      intro hdv
      apply hnz
      rw [← t1, M.lawful.zsmul_congr (Int.modEq_zero_iff_dvd.2 hdv), zero_zsmul]
    have hs : σ - σ' ≠ 0 := sub_ne_zero.2 hne
    apply M.lawful.zsmul_ne hdt hs
    rw [zsmul_sub, t1, t2, sub_self]

end

/-- **C131**.  Whoever proves two different lists of evaluations for one public key and one
commitment to messages opens a Pedersen commitment in two ways, so (C130) at most with twice the
probability with which an explicit algorithm factors the modulus, up to the terms of C130. -/
theorem C131_unique {p q k kk : Nat} [NeZero (p * q)] {C : Type} [Fintype C] [Nonempty C]
    (h : Safe2 p q) (hk : 1 ≤ kk) (hk' : kk < 31) {vp : VrfParams} {E : EcGroup G} (hE : E.Lawful)
    (hch : vp.chal ≤ 129000) (hse : vp.sec ≤ 2 ^ 30) (A : Equivocator G C) (t : Nat) :
    equivProb (p * q) k kk vp E A ≤ 2 * factorProb (p * q) k t (toBreaker vp E kk A) +
      (k + 2) * ((p / 2 + q / 2 : ℕ) : ℚ) / (2 * (p / 2 * (q / 2) : ℕ)) + k / 2 ^ (t + 1) := by
  refine le_trans ?_ (C130_binding (k := k) h hk hk' (toBreaker vp E kk A) t)
  have hn4 : 4 ≤ p * q := by have := h.bigL; have := h.bigR; nlinarith
  refine prob_mono ?_
  rintro ⟨x, w, c⟩ ⟨P, ped, v, hP, hp, hv, he⟩
  refine ⟨P, hP, ?_⟩
  obtain ⟨e1, e2, e3⟩ := generated hn4 x.val.val (fun i => (w i).val) (fun i => (w i).isLt) hP
  rw [e1, e2, e3] at hp he ⊢
  have hx : Int.gcd (x.val.val : Int) (p * q : ℕ) = 1 := by
    have := ZMod.val_coe_unit_coprime x
    rw [Int.gcd_natCast_natCast]
    exact this
  exact opens_twice hk hk' hE hch hse A (by exact_mod_cast (by omega : 1 < p * q)) (gcd_pow_emod hx 2) c
    hp hv he

/-! ### Provers that run once -/

/-- What a prover outputs: a public key, a commitment to messages, and two lists of evaluations with
proofs. -/
structure TwoOut (G : Type) where
  pk : Bytes
  cm : Int
  evals : List G
  π : VrfApplyProof
  evals' : List G
  π' : VrfApplyProof

def TwoOut.first (a : TwoOut G) : ApplyOut G := ⟨a.evals, a.pk, a.cm, a.π⟩

def TwoOut.second (a : TwoOut G) : ApplyOut G := ⟨a.evals', a.pk, a.cm, a.π'⟩

/-- Both proofs are accepted and the evaluations differ at some place. -/
def Cheats (H : Hashes) (v : DyVrf G) (a : TwoOut G) : Prop :=
  verifyApplyProof H v a.evals a.pk a.cm a.π = .ok () ∧
  verifyApplyProof H v a.evals' a.pk a.cm a.π' = .ok () ∧
  ∃ (i : Nat) (σ σ' : G), a.evals[i]? = some σ ∧ a.evals'[i]? = some σ' ∧ σ ≠ σ'

/-- A prover is given the Pedersen parameters and coins, and asks for hashes. -/
abbrev Prover (G R : Type) := List Int → Int → Int → R → Prog Bytes Digest (TwoOut G)

/-- The probability that a prover cheats, with fresh Pedersen parameters; SHA-512 is a random
function on `D`. -/
noncomputable def cheatProb (n k kk : Nat) [NeZero n] (vp : VrfParams) (E : EcGroup G) {R : Type}
    [Fintype R] (H : Hashes) (B : Bytes → Digest) (D : Finset Bytes) (A : Prover G R) : ℚ :=
  prob fun s : ((ZMod n)ˣ × (Fin k → Fin (n / 4)) × R) × (D → Digest) =>
    ∃ P ped v, generateParameters n (s.1.1.val.val : Int) (List.ofFn fun i => (s.1.2.1 i).val) = .ok P ∧
      Ped.create P.gs P.h P.n kk = .ok ped ∧ Vrf.create vp E ped = .ok v ∧
      Cheats (withSha512 H (graft B D s.2)) v ((A P.gs P.h P.n s.1.2.2).run (graft B D s.2))

/-- The string hashed for evaluations and their proof. -/
def hashed (vp : VrfParams) (E : EcGroup G) (a : ApplyOut G) : Option Bytes :=
  match ecPointVectorToProto E a.evals with
  | .ok es => some (block (applyTranscript vp a.pk (BN.natToBytes a.cm.toNat) es
      a.proof.commitDummy a.proof.dummyGs))
  | _ => none

theorem hashed_eq {vp : VrfParams} {E : EcGroup G} {v : DyVrf G} (h1 : v.params = vp) (h2 : v.group = E)
    (a : ApplyOut G) : hashedApply v a = hashed vp E a := by
  rw [← h1, ← h2]; rfl

/-- Run a prover, then run it again from the hash of each of the two proofs on. -/
def rewound (vp : VrfParams) (E : EcGroup G) {R : Type} (H : Hashes) (B : Bytes → Digest)
    (D : Finset Bytes) (A : Prover G R) :
    Equivocator G (R × (D → Digest) × (D → Digest) × (D → Digest)) := fun gs h n coins =>
  let P := A gs h n coins.1
  let o := graft B D coins.2.1
  let a := P.run o
  let o₁ := P.rewind o (graft B D coins.2.2.1) ((hashed vp E a.first).getD [])
  let o₂ := P.rewind o (graft B D coins.2.2.2) ((hashed vp E a.second).getD [])
  (a.pk, a.cm, ⟨a.evals, withSha512 H o, withSha512 H o₁, a.π, (P.run o₁).π⟩,
    ⟨a.evals', withSha512 H o, withSha512 H o₂, a.π', (P.run o₂).π'⟩)

/-- Two accepted proofs for which the same string is hashed, with different challenges. -/
theorem proved_of {gs : List Int} {h n : Int} {v : DyVrf G} (M : Made gs h n v)
    (hchal : v.params.chal ≤ 511) (hint : IsInt64 v.params.sec ∧ IsInt64 v.params.chal)
    (horder : 2 ^ v.params.chal.toNat ≤ v.group.order) {H : Hashes} {o o' : Bytes → Digest}
    {es es' : List G} {pk pk' : Bytes} {cm cm' : Int} {π π' : VrfApplyProof} {x : Bytes}
    (hl : x.length ≤ 2 ^ 64) (e1 : hashedApply v ⟨es, pk, cm, π⟩ = some x)
    (e2 : hashedApply v ⟨es', pk', cm', π'⟩ = some x)
    (v1 : verifyApplyProof (withSha512 H o) v es pk cm π = .ok ())
    (v2 : verifyApplyProof (withSha512 H o') v es' pk' cm' π' = .ok ())
    (hne : chalOf v.params.chal.toNat (o x) ≠ chalOf v.params.chal.toNat (o' x)) :
    Proved v pk cm ⟨es, withSha512 H o, withSha512 H o', π, π'⟩ := by
  obtain ⟨ds, c, -, -, -, -, h5, -⟩ := (verifyApply_iff M _ _ _ _).1 v1
  obtain ⟨h0, x1, hx1, rfl⟩ := (applyChallenge_iff (a := ⟨es, pk, cm, π⟩) M hchal).1 h5
  obtain ⟨ds', c', -, -, -, -, h5', -⟩ := (verifyApply_iff M _ _ _ _).1 v2
  obtain ⟨h0', x2, hx2, rfl⟩ := (applyChallenge_iff (a := ⟨es', pk', cm', π'⟩) M hchal).1 h5'
  rw [e1] at hx1
  cases hx1
  rw [e2] at hx2
  cases hx2
  have ht := e1.trans e2.symm
  unfold hashedApply at e1 ht
  cases hE : ecPointVectorToProto v.group es with
  | err e => simp [hE] at e1
  | crash => simp [hE] at e1
  | ub => simp [hE] at e1
  | ok bs =>
    cases hE' : ecPointVectorToProto v.group es' with
    | err e => simp [hE, hE'] at ht
    | crash => simp [hE, hE'] at ht
    | ub => simp [hE, hE'] at ht
    | ok bs' =>
      simp only [hE, hE', Option.some.injEq] at ht e1
      rw [← e1] at hl
      obtain ⟨-, rfl, hcm, rfl, hm1, hm2⟩ := C71_apply_transcript _ _ _ _ _ _ _ _ _ _ _ _ hint hint
        (Nat.lt_of_succ_le hl) (block_inj ht)
      have hcm' : cm = cm' := by
        have := congrArg BN.ofBytes hcm
        rw [BN.ofBytes_natToBytes, BN.ofBytes_natToBytes] at this
        dsimp only at h0 h0'
        omega
      subst hcm'
      have hes : es = es' := by
        have k1 := (ecPoints_ok M.lawful hE).2
        have k2 := (ecPoints_ok M.lawful hE').2
        rw [k1] at k2
        exact Res.ok.inj k2
      subst hes
      refine ⟨v1, v2, ⟨hm1, hm2⟩, ?_⟩
      intro c c' hc hc'
      rw [h5] at hc
      rw [h5'] at hc'
      cases hc
      cases hc'
      intro hd
      have l1 : ((chalOf v.params.chal.toNat (o x) : Nat) : Int) < 2 ^ v.params.chal.toNat := by
        exact_mod_cast chalOf_lt _ _
      have l2 : ((chalOf v.params.chal.toNat (o' x) : Nat) : Int) < 2 ^ v.params.chal.toNat := by
        exact_mod_cast chalOf_lt _ _
      have ho : (2 : Int) ^ v.params.chal.toNat ≤ v.group.order := by exact_mod_cast horder
      have := Int.eq_zero_of_abs_lt_dvd hd (by
        rw [abs_lt]
        constructor <;> omega)
      omega

theorem average {α β γ : Type} [Fintype α] [Nonempty α] [Fintype β] [Fintype γ] {S : α → β → Prop}
    {T : α → γ → Prop} {c d : ℚ} (h : ∀ a, (prob (S a) - c) * d ≤ prob (T a)) :
    (prob (fun t : α × β => S t.1 t.2) - c) * d ≤ prob (fun t : α × γ => T t.1 t.2) := by
  rw [prob_prod S, prob_prod T]
  have hN : (0 : ℚ) < Fintype.card α := by exact_mod_cast Fintype.card_pos
  rw [le_div_iff₀ hN]
  refine le_trans (le_of_eq ?_) (Finset.sum_le_sum fun a _ => h a)
  rw [← Finset.sum_mul, Finset.sum_sub_distrib, Finset.sum_const, Finset.card_univ, nsmul_eq_mul]
  field_simp

/-- From a prover to an equivocator: for every `τ`. -/
theorem cheat_le {n k kk : Nat} [NeZero n] (hn4 : 4 ≤ n) {R : Type} [Fintype R] [Nonempty R]
    (hk : 1 ≤ kk) (hk' : kk < 31) {vp : VrfParams} {E : EcGroup G} (hE : E.Lawful)
    (hchal : vp.chal ≤ 511) (hse : vp.sec ≤ 2 ^ 30) (hint : IsInt64 vp.sec ∧ IsInt64 vp.chal)
    (horder : 2 ^ vp.chal.toNat ≤ E.order) (H : Hashes) (B : Bytes → Digest)
    (D : Finset Bytes) (hlen : ∀ x ∈ D, x.length ≤ 2 ^ 64) (Q : Nat) (A : Prover G R)
    (hQ : ∀ gs h n r, (A gs h n r).AsksAtMost Q)
    (hD : ∀ gs h n r o x, hashed vp E ((A gs h n r).run o).first = some x ∨
      hashed vp E ((A gs h n r).run o).second = some x → x ∈ D) {τ : ℚ}
    (hτ : 1 / 2 ^ vp.chal.toNat ≤ τ) :
    (cheatProb n k kk vp E H B D A - 2 * (Q + 1) * τ) * (τ - 1 / 2 ^ vp.chal.toNat) ^ 2 ≤
      equivProb n k kk vp E (rewound vp E H B D A) := by
  have hn : (1 : Int) < n := by exact_mod_cast (by omega : 1 < n)
  haveI : Nonempty (Fin (n / 4)) := ⟨⟨0, by omega⟩⟩
  unfold cheatProb equivProb
  have e := prob_equiv (α := ((ZMod n)ˣ × (Fin k → Fin (n / 4)) × R) ×
      ((D → Digest) × (D → Digest) × (D → Digest)))
    (⟨fun s => (s.1.1, s.1.2.1, s.1.2.2, s.2), fun s => ((s.1, s.2.1, s.2.2.1), s.2.2.2),
      fun _ => rfl, fun _ => rfl⟩ : _ ≃ ((ZMod n)ˣ × (Fin k → Fin (n / 4)) ×
        (R × (D → Digest) × (D → Digest) × (D → Digest))))
    (fun s => ∃ P ped v, generateParameters n (s.1.val.val : Int) (List.ofFn fun i => (s.2.1 i).val) = .ok P ∧
      Ped.create P.gs P.h P.n kk = .ok ped ∧ Vrf.create vp E ped = .ok v ∧
      Equivocates v (rewound vp E H B D A P.gs P.h P.n s.2.2))
  rw [← e]
  refine average (S := fun (θ : (ZMod n)ˣ × (Fin k → Fin (n / 4)) × R) (f : D → Digest) =>
    ∃ P ped v, generateParameters n (θ.1.val.val : Int) (List.ofFn fun i => (θ.2.1 i).val) = .ok P ∧
      Ped.create P.gs P.h P.n kk = .ok ped ∧ Vrf.create vp E ped = .ok v ∧
      Cheats (withSha512 H (graft B D f)) v ((A P.gs P.h P.n θ.2.2).run (graft B D f)))
    (T := fun (θ : (ZMod n)ˣ × (Fin k → Fin (n / 4)) × R) t =>
    ∃ P ped v, generateParameters n (θ.1.val.val : Int) (List.ofFn fun i => (θ.2.1 i).val) = .ok P ∧
      Ped.create P.gs P.h P.n kk = .ok ped ∧ Vrf.create vp E ped = .ok v ∧
      Equivocates v (rewound vp E H B D A P.gs P.h P.n (θ.2.2, t))) ?_
  rintro ⟨u, w, r⟩
  have hδ0 : (0 : ℚ) ≤ 1 / 2 ^ vp.chal.toNat := by positivity
  by_cases hex : ∃ P ped v, generateParameters n (u.val.val : Int) (List.ofFn fun i => (w i).val) = .ok P ∧
      Ped.create P.gs P.h P.n kk = .ok ped ∧ Vrf.create vp E ped = .ok v
  · obtain ⟨P, ped, v, hP, hp, hv⟩ := hex
    obtain ⟨q1, q2, q3⟩ := generated hn4 u.val.val (fun i => (w i).val) (fun i => (w i).isLt) hP
    have hx : Int.gcd (u.val.val : Int) (n : ℕ) = 1 := by
      rw [Int.gcd_natCast_natCast]
      exact ZMod.val_coe_unit_coprime u
    have hp' := hp
    rw [q1, q2, q3] at hp'
    obtain ⟨M, m1, m2, m3⟩ := made_of hk hk' hE (by omega) hse hn (gcd_pow_emod hx 2) hp' hv
    have hV := verifyApply_hash M (by rw [m1]; exact hchal) H
    set Pr := A P.gs P.h P.n r with hPr
    have F := double_fork (chalOf vp.chal.toNat) (δ := 1 / 2 ^ vp.chal.toNat)
      (fun c => prob_chal (by omega) _ fun d d' e e' => e.trans e'.symm) hδ0 hτ
      (fun a => hashedApply v a.first) (fun a => hashedApply v a.second)
      (fun a y => verifyApplyProof (withSha512 H fun _ => y) v a.evals a.pk a.cm a.π = .ok ())
      (fun a y => verifyApplyProof (withSha512 H fun _ => y) v a.evals' a.pk a.cm a.π' = .ok ())
      Pr Q D B (hQ _ _ _ _) (fun f => Cheats (withSha512 H (graft B D f)) v (Pr.run (graft B D f))) ?_
    · refine le_trans (le_of_eq ?_) (F.trans (prob_mono ?_))
      · congr 2
        refine prob_congr fun f => ⟨?_, fun h => ⟨P, ped, v, hP, hp, hv, h⟩⟩
        rintro ⟨P', ped', v', a1, a2, a3, a4⟩
        rw [hP] at a1; cases a1
        rw [hp] at a2; cases a2
        rw [hv] at a3; cases a3
        exact a4
      · rintro ⟨f, g₁, g₂⟩ ⟨⟨c1, c2, i, σ, σ', hi, hi', hne⟩, ⟨x, hx, ⟨⟨t1, w1⟩, t2, w2⟩, ne⟩,
          x', hx', ⟨⟨t1', w1'⟩, t2', w2'⟩, ne'⟩
        refine ⟨P, ped, v, hP, hp, hv, ?_⟩
        have k1 : hashed vp E (Pr.run (graft B D f)).first = some x := by
          rw [← hashed_eq m1 m2]; exact t1
        have k2 : hashed vp E (Pr.run (graft B D f)).second = some x' := by
          rw [← hashed_eq m1 m2]; exact t1'
        unfold Equivocates rewound
        simp only [← hPr, k1, k2, Option.getD_some]
        refine ⟨?_, ?_, i, σ, σ', hi, hi', hne⟩
        · refine proved_of (es' := (Pr.run (Pr.rewind (graft B D f) (graft B D g₁) x)).evals)
            (pk' := (Pr.run (Pr.rewind (graft B D f) (graft B D g₁) x)).pk)
            (cm' := (Pr.run (Pr.rewind (graft B D f) (graft B D g₁) x)).cm)
            M (by rw [m1]; exact hchal) (by rw [m1]; exact hint) (by rw [m1, m2]; exact horder)
            (hlen x hx) t1 t2 c1 ((hV _ (Pr.run (Pr.rewind (graft B D f) (graft B D g₁) x)).first).2
              ⟨x, t2, w2⟩) ?_
          rw [Prog.rewind_self, m1]
          exact ne
        · refine proved_of (es' := (Pr.run (Pr.rewind (graft B D f) (graft B D g₂) x')).evals')
            (pk' := (Pr.run (Pr.rewind (graft B D f) (graft B D g₂) x')).pk)
            (cm' := (Pr.run (Pr.rewind (graft B D f) (graft B D g₂) x')).cm)
            M (by rw [m1]; exact hchal) (by rw [m1]; exact hint) (by rw [m1, m2]; exact horder)
            (hlen x' hx') t1' t2' c2 ((hV _ (Pr.run (Pr.rewind (graft B D f) (graft B D g₂) x')).second).2
              ⟨x', t2', w2'⟩) ?_
          rw [Prog.rewind_self, m1]
          exact ne'
    · rintro f ⟨c1, c2, -⟩
      obtain ⟨x, k1, k2⟩ := (hV _ (Pr.run (graft B D f)).first).1 c1
      obtain ⟨x', k1', k2'⟩ := (hV _ (Pr.run (graft B D f)).second).1 c2
      refine ⟨⟨x, hD P.gs P.h P.n r (graft B D f) x (Or.inl ?_), k1, k2⟩,
        x', hD P.gs P.h P.n r (graft B D f) x' (Or.inr ?_), k1', k2'⟩
      · rw [← hashed_eq m1 m2]; exact k1
      · rw [← hashed_eq m1 m2]; exact k1'
  · refine le_trans ?_ (prob_nonneg _)
    have z : prob (fun f : D → Digest => ∃ P ped v,
        generateParameters n (u.val.val : Int) (List.ofFn fun i => (w i).val) = .ok P ∧
        Ped.create P.gs P.h P.n kk = .ok ped ∧ Vrf.create vp E ped = .ok v ∧
        Cheats (withSha512 H (graft B D f)) v ((A P.gs P.h P.n r).run (graft B D f))) = 0 := by
      unfold prob
      rw [Finset.filter_false_of_mem]
      · simp
      · rintro f - ⟨P, ped, v, a1, a2, a3, -⟩
        exact hex ⟨P, ped, v, a1, a2, a3⟩
    have z' : ∀ c d : ℚ, 0 ≤ c → 0 ≤ d → (0 - c) * d ≤ 0 := fun c d hc hd => by nlinarith
    refine le_trans (le_of_eq ?_) (z' (2 * (Q + 1) * τ) ((τ - 1 / 2 ^ vp.chal.toNat) ^ 2)
      (by have := hδ0.trans hτ; positivity) (sq_nonneg _))
    rw [← z]

/-- **C131**, provers that run once.  A prover of any computing power is given fresh Pedersen
parameters, asks for at most `Q` hashes and outputs a public key, a commitment to messages and two
lists of evaluations with proofs.  If with probability `a` both proofs are accepted although the
evaluations differ, then an explicit algorithm (it runs the prover three times) factors the modulus
with a probability that is bounded from below by the cube of `a` over the square of `8 (Q + 1)`, up
to the length of the challenge and the terms of C130. -/
theorem C131_rom {p q k kk : Nat} [NeZero (p * q)] (h : Safe2 p q) {R : Type} [Fintype R] [Nonempty R]
    (hk : 1 ≤ kk) (hk' : kk < 31) {vp : VrfParams} {E : EcGroup G} (hE : E.Lawful)
    (hchal : vp.chal ≤ 511) (hse : vp.sec ≤ 2 ^ 30) (hint : IsInt64 vp.sec ∧ IsInt64 vp.chal)
    (horder : 2 ^ vp.chal.toNat ≤ E.order) (H : Hashes) (B : Bytes → Digest)
    (D : Finset Bytes) (hlen : ∀ x ∈ D, x.length ≤ 2 ^ 64) (Q : Nat) (A : Prover G R)
    (hQ : ∀ gs h n r, (A gs h n r).AsksAtMost Q)
    (hD : ∀ gs h n r o x, hashed vp E ((A gs h n r).run o).first = some x ∨
      hashed vp E ((A gs h n r).run o).second = some x → x ∈ D) (t : Nat) {a : ℚ}
    (ha : a = cheatProb (p * q) k kk vp E H B D A)
    (hbig : 1 / 2 ^ vp.chal.toNat ≤ a / (4 * (Q + 1))) :
    a / 2 * (a / (4 * (Q + 1)) - 1 / 2 ^ vp.chal.toNat) ^ 2 ≤
      2 * factorProb (p * q) k t (toBreaker vp E kk (rewound vp E H B D A)) +
      (k + 2) * ((p / 2 + q / 2 : ℕ) : ℚ) / (2 * (p / 2 * (q / 2) : ℕ)) + k / 2 ^ (t + 1) := by
  have hn4 : 4 ≤ p * q := by have := h.bigL; have := h.bigR; nlinarith
  have h1 := cheat_le (k := k) hn4 hk hk' hE hchal hse hint horder H B D hlen Q A hQ hD hbig
  have h2 := C131_unique (k := k) h hk hk' hE (by omega) hse (rewound vp E H B D A) t
  refine le_trans (le_of_eq ?_) (h1.trans h2)
  rw [← ha]
  have : ((Q : ℚ) + 1) ≠ 0 := by positivity
  have e : 2 * ((Q : ℚ) + 1) * (a / (4 * (Q + 1))) = a / 2 := by field_simp; ring
  rw [e]
  ring

/-! ### A prover that cheats

Modulo 77 squares have orders that divide 15, so that the messages 0 and 15 have the same
commitment.  On a curve of order 16829 (more than 15) a prover that knows this has two lists of
evaluations.  It cheats for one pair of generators only; that suffices with challenges of 14 bits. -/

/-- Z/16829 with encodings of one or two bytes. -/
def midEc : EcGroup (ZMod 16829) where
  order := 16829
  gen := 1
  point2oct P := if P = 0 then none else some (BN.natToBytes P.val)
  oct2point bs := some ((BN.ofBytes bs : Int) : ZMod 16829)
  hashSha256 _ := .ok 1
  hashSha384 _ := .ok 1
  hashSha512 _ := .ok 1
  hashSswuRo _ _ := .ok 1

theorem midEc_lawful : midEc.Lawful where
  prime := by show Nat.Prime 16829; norm_num
  order_smul P := by
    show (16829 : Nat) • P = 0
    rw [nsmul_eq_mul, ZMod.natCast_self, zero_mul]
  gen_ne := by decide
  encode_zero := by simp [midEc]
  decode_encode P hP := by
    refine ⟨BN.natToBytes P.val, by simp [midEc, hP], ?_⟩
    simp only [midEc, BN.ofBytes_natToBytes, Int.cast_natCast, ZMod.natCast_zmod_val]

def midParams : VrfParams := ⟨2, 14, [], [1], ⟨[77], [[64]], [4]⟩⟩

def midDraws : ApplyDraws := ⟨0, fun _ => 1, 5⟩

def midKey : VrfPrivateKey := ⟨[1, 239], []⟩

/-- What does not depend on the hash values. -/
def midRun : Res (DyVrf (ZMod 16829) × List (ZMod 16829) × List (ZMod 16829) × (Bytes × List Bytes) ×
    Bytes × List Bytes) := do
  let ped ← Ped.create [64] 4 77 3
  let v ← Vrf.create midParams midEc ped
  let es ← Vrf.apply v [0] midKey
  let es' ← Vrf.apply v [15] midKey
  let m ← applyProofMessage1 v [0] es midDraws
  let m' ← applyProofMessage1 v [15] es' midDraws
  let c ← BN.toBytes m.1
  let c' ← BN.toBytes m'.1
  let b ← ecPointVectorToProto midEc m.2.1
  let b' ← ecPointVectorToProto midEc m'.2.1
  return (v, es, es', (c, b), (c', b'))

def strOf (es : List (ZMod 16829)) (m : Bytes × List Bytes) : Bytes :=
  (hashed midParams midEc ⟨es, [1], 1, ⟨m.1, m.2, [], []⟩⟩).getD []

def proofOf (H : Hashes) (v : DyVrf (ZMod 16829)) (ms : List Int) (es : List (ZMod 16829)) (y : Digest) :
    VrfApplyProof :=
  match generateApplyProof (withSha512 H fun _ => y) v ms es [1] midKey 1 0 midDraws with
  | .ok π => π
  | _ => ⟨[], [], [], []⟩

def midCheat (H : Hashes) : Prover (ZMod 16829) Unit := fun gs h n _ =>
  match midRun with
  | .ok (v, es, es', m, m') =>
    if gs = [64] ∧ h = 4 ∧ n = 77 then
      .ask (strOf es m) fun y => .ask (strOf es' m') fun y' =>
        .out ⟨[1], 1, es, proofOf H v [0] es y, es', proofOf H v [15] es' y'⟩
    else .out ⟨[], 0, [0], ⟨[], [], [], []⟩, [0], ⟨[], [], [], []⟩⟩
  | _ => .out ⟨[], 0, [0], ⟨[], [], [], []⟩, [0], ⟨[], [], [], []⟩⟩

def midOk : Bool :=
  match midRun with
  | .ok (v, es, es', m, m') => decide (es ≠ es' ∧ es.length = 1 ∧ es'.length = 1 ∧
      (hashed midParams midEc ⟨es, [1], 1, ⟨m.1, m.2, [], []⟩⟩).isSome ∧
      (hashed midParams midEc ⟨es', [1], 1, ⟨m'.1, m'.2, [], []⟩⟩).isSome ∧
      (strOf es m).length ≤ 1000 ∧ (strOf es' m').length ≤ 1000)
  | _ => false

theorem midOk_true : midOk = true := by decide +kernel

theorem safe_7_11 : Safe2 7 11 := by
  refine ⟨⟨?_, ?_, ?_⟩, ⟨?_, ?_, ?_⟩, ?_, ?_, ?_⟩ <;> norm_num

/-- The proofs of `midCheat` are made for its strings. -/
theorem proofOf_first {H : Hashes} {v : DyVrf (ZMod 16829)} {ms : List Int} {es : List (ZMod 16829)}
    {y : Digest} {π : VrfApplyProof} (hg : v.group = midEc)
    (hπ : generateApplyProof (withSha512 H fun _ => y) v ms es [1] midKey 1 0 midDraws = .ok π)
    {m} (hm : applyProofMessage1 v ms es midDraws = .ok m) {c : Bytes} (hc : BN.toBytes m.1 = .ok c)
    {b : List Bytes} (hb : ecPointVectorToProto midEc m.2.1 = .ok b) :
    π.commitDummy = c ∧ π.dummyGs = b := by
  unfold generateApplyProof at hπ
  rw [hm, Res.ok_bind] at hπ
  obtain ⟨m1, m2, m3, m4, m5⟩ := m
  simp only [hg] at hπ hc hb
  simp only [hc, hb, Res.ok_bind, Res.bind_eq_ok, Res.pure_eq, Res.ok.injEq] at hπ
  obtain ⟨_, -, _, -, _, -, _, -, rfl⟩ := hπ
  exact ⟨rfl, rfl⟩

theorem one_row {α β : Type} [Fintype α] [Fintype β] [Nonempty β] (S : α → β → Prop) (a : α)
    (h : ∀ b, S a b) : (1 / Fintype.card α : ℚ) ≤ prob (fun t : α × β => S t.1 t.2) := by
  rw [prob_prod S]
  refine div_le_div_of_nonneg_right ?_ (by positivity)
  refine le_trans (le_of_eq ?_) (Finset.single_le_sum (f := fun a => prob (S a))
    (fun θ _ => prob_nonneg _) (Finset.mem_univ a))
  exact (prob_eq_one h).symm

/-- This prover meets the hypotheses of `C131_rom`, for `p = 7`, `q = 11` and challenges of 14 bits. -/
theorem C131_reached (H : Hashes) (B : Bytes → Digest) : Safe2 7 11 ∧ midEc.Lawful ∧
    (midParams.chal ≤ 511 ∧ midParams.sec ≤ 2 ^ 30 ∧ IsInt64 midParams.sec ∧ IsInt64 midParams.chal ∧
      2 ^ midParams.chal.toNat ≤ midEc.order) ∧
    ∃ D : Finset Bytes, (∀ x ∈ D, x.length ≤ 2 ^ 64) ∧
      (∀ gs h n r, (midCheat H gs h n r).AsksAtMost 2) ∧
      (∀ gs h n r o x, hashed midParams midEc ((midCheat H gs h n r).run o).first = some x ∨
        hashed midParams midEc ((midCheat H gs h n r).run o).second = some x → x ∈ D) ∧
      (1 / 2 ^ midParams.chal.toNat : ℚ) ≤
        cheatProb (7 * 11) 1 3 midParams midEc H B D (midCheat H) / (4 * ((2 : ℕ) + 1)) := by
  refine ⟨safe_7_11, midEc_lawful, ⟨by decide, by decide, ⟨by decide, by decide⟩, ⟨by decide, by decide⟩,
    by decide⟩, ?_⟩
  have hok := midOk_true
  unfold midOk at hok
  cases hrun : midRun with
  | err e => rw [hrun] at hok; simp at hok
  | crash => rw [hrun] at hok; simp at hok
  | ub => rw [hrun] at hok; simp at hok
  | ok R =>
  obtain ⟨v, es, es', m, m'⟩ := R
  rw [hrun] at hok
  simp only [decide_eq_true_eq] at hok
  obtain ⟨hne, hl, hl', hs, hs', hlen, hlen'⟩ := hok
  have hr := hrun
  unfold midRun at hr
  simp only [Res.bind_eq_ok, Res.pure_eq, Res.ok.injEq, Prod.mk.injEq] at hr
  obtain ⟨ped, hp, v₁, hv, es₁, hes, es₂, hes', M₁, hM₁, M₂, hM₂, c, hc, c', hc', b, hb, b', hb',
    rfl, rfl, rfl, rfl, rfl⟩ := hr
  have hpar : v₁.params = midParams := by cases hv; rfl
  have hgr : v₁.group = midEc := by cases hv; rfl
  have h511 : v₁.params.chal ≤ 511 := by rw [hpar]; decide
  have M : Made [64] 4 77 v₁ := by
    cases hv
    exact ⟨midEc_lawful, by decide, by decide, by decide, ⟨3, by decide, by decide, hp⟩, rfl,
      (by decide : midParams.chal ≤ 129000), (by decide : midParams.sec ≤ 2 ^ 30)⟩
  have hkey : IsKeyPair [64] 4 77 v₁.group [1] midKey := by
    rw [hgr]
    exact ⟨by decide, (by decide : BN.ofBytes midKey.key < (16829 : ℕ)), by decide, by decide,
      by decide +kernel⟩
  -- an accepted proof for every hash value
  have good : ∀ (ms : List Int) (σs : List (ZMod 16829)), ms.length = 1 →
      (∀ x ∈ ms, 0 ≤ x ∧ x < 16) → commitment [64] 4 77 ms 0 = 1 → Vrf.apply v₁ ms midKey = .ok σs →
      ∀ y, ∃ π, generateApplyProof (withSha512 H fun _ => y) v₁ ms σs [1] midKey 1 0 midDraws = .ok π ∧
        verifyApplyProof (withSha512 H fun _ => y) v₁ σs [1] 1 π = .ok () := by
    intro ms σs h1 h2 h3 h4 y
    have hk : BN.ofBytes midKey.key = 495 := by decide
    obtain ⟨σ, e1, e2⟩ := (C57_apply M midKey ms).1 (by
      intro x hx hd
      have := h2 x hx
      rw [hk, hgr] at hd
      have h5 : (16829 : Int) ∣ x + 495 := hd
      omega)
    rw [h4] at e1
    cases e1
    have := C58_complete M (withSha512 H fun _ => y) [1] midKey hkey ms (by simp [h1]) (fun x hx => by
      rw [hgr]
      have := h2 x hx
      exact ⟨this.1, by show x < (16829 : ℕ); omega⟩) σs e2 0 le_rfl midDraws
    rw [h3] at this
    rcases this with h5 | ⟨-, i, -, hd⟩
    · exact h5
    · exfalso
      rw [hgr, hpar] at hd
      revert hd
      show ¬ ((16829 : ℕ) : Int) ∣ _
      simp only [midDraws]
      decide
  have g1 := good [0] es₁ rfl (by decide) (by decide +kernel) hes
  have g2 := good [15] es₂ rfl (by decide) (by decide +kernel) hes'
  have target : ∀ (ms : List Int) (σs : List (ZMod 16829)) (Mi) (ci : Bytes) (bi : List Bytes),
      applyProofMessage1 v₁ ms σs midDraws = .ok Mi → BN.toBytes Mi.1 = .ok ci →
      ecPointVectorToProto midEc Mi.2.1 = .ok bi →
      (hashed midParams midEc ⟨σs, [1], 1, ⟨ci, bi, [], []⟩⟩).isSome = true →
      (∀ y, ∃ π, generateApplyProof (withSha512 H fun _ => y) v₁ ms σs [1] midKey 1 0 midDraws = .ok π ∧
        verifyApplyProof (withSha512 H fun _ => y) v₁ σs [1] 1 π = .ok ()) →
      ∀ y, hashed midParams midEc ⟨σs, [1], 1, proofOf H v₁ ms σs y⟩ = some (strOf σs (ci, bi)) ∧
        verifyApplyProof (withSha512 H fun _ => y) v₁ σs [1] 1 (proofOf H v₁ ms σs y) = .ok () := by
    intro ms σs Mi ci bi q1 q2 q3 q4 q5 y
    obtain ⟨π, hπ, hacc⟩ := q5 y
    have e : proofOf H v₁ ms σs y = π := by unfold proofOf; rw [hπ]
    rw [e]
    refine ⟨?_, hacc⟩
    obtain ⟨f1, f2⟩ := proofOf_first hgr hπ q1 q2 q3
    obtain ⟨X, hX⟩ := Option.isSome_iff_exists.1 q4
    unfold strOf
    rw [hX, Option.getD_some, ← hX]
    unfold hashed
    simp only [f1, f2]
  have t1 := target [0] es₁ M₁ c b hM₁ hc hb hs g1
  have t2 := target [15] es₂ M₂ c' b' hM₂ hc' hb' hs' g2
  have junk : hashed midParams midEc (⟨[0], [], 0, ⟨[], [], [], []⟩⟩ : ApplyOut (ZMod 16829)) = none := by
    decide +kernel
  refine ⟨{strOf es₁ (c, b), strOf es₂ (c', b')}, ?_, ?_, ?_, ?_⟩
  · intro x hx
    have : x.length ≤ 1000 := by
      rcases Finset.mem_insert.1 hx with rfl | hx
      · exact hlen
      · rw [Finset.mem_singleton.1 hx]; exact hlen'
    exact this.trans (by decide)
  · intro gs h n r
    unfold midCheat
    rw [hrun]
    dsimp only
    split
    · exact fun _ _ => trivial
    · trivial
  · intro gs h n r o x hx
    unfold midCheat at hx
    rw [hrun] at hx
    dsimp only at hx
    split at hx
    · simp only [Prog.run, TwoOut.first, TwoOut.second] at hx
      rw [(t1 _).1, (t2 _).1] at hx
      rcases hx with hx | hx <;> cases hx <;> simp
    · simp only [Prog.run, TwoOut.first, TwoOut.second, junk] at hx
      rcases hx with hx | hx <;> cases hx
  · set D : Finset Bytes := {strOf es₁ (c, b), strOf es₂ (c', b')}
    have hlow : (1 / 1140 : ℚ) ≤ cheatProb (7 * 11) 1 3 midParams midEc H B D (midCheat H) := by
      unfold cheatProb
      have hcard : Fintype.card ((ZMod (7 * 11))ˣ × (Fin 1 → Fin (7 * 11 / 4)) × Unit) = 1140 := by
        rw [Fintype.card_prod, ZMod.card_units_eq_totient]
        simp
        decide
      let u : (ZMod (7 * 11))ˣ := ⟨2, 39, by decide, by decide⟩
      refine le_trans (le_of_eq ?_) (one_row (fun (s : (ZMod (7 * 11))ˣ × (Fin 1 → Fin (7 * 11 / 4)) × Unit)
        (f : D → Digest) => ∃ P ped v, generateParameters (7 * 11 : ℕ) (s.1.val.val : Int)
          (List.ofFn fun i => (s.2.1 i).val) = .ok P ∧
          Ped.create P.gs P.h P.n 3 = .ok ped ∧ Vrf.create midParams midEc ped = .ok v ∧
          Cheats (withSha512 H (graft B D f)) v ((midCheat H P.gs P.h P.n s.2.2).run (graft B D f)))
        (u, (fun _ => ⟨3, by decide⟩), ()) fun f => ?_)
      · rw [hcard, Nat.cast_ofNat]
      refine ⟨⟨[64], 4, 77, [3]⟩, ped, v₁, by decide +kernel, hp, hv, ?_⟩
      unfold midCheat
      rw [hrun]
      show Cheats _ _ (Prog.run _ (if _ then _ else _))
      rw [if_pos ⟨rfl, rfl, rfl⟩]
      simp only [Prog.run]
      refine ⟨?_, ?_, 0, ?_⟩
      · refine (verifyApply_hash M h511 H _ ⟨es₁, [1], 1, _⟩).2 ⟨strOf es₁ (c, b), ?_, (t1 _).2⟩
        rw [hashed_eq hpar hgr]
        exact (t1 _).1
      · refine (verifyApply_hash M h511 H _ ⟨es₂, [1], 1, _⟩).2 ⟨strOf es₂ (c', b'), ?_, (t2 _).2⟩
        rw [hashed_eq hpar hgr]
        exact (t2 _).1
      · obtain ⟨σ, rfl⟩ := List.length_eq_one_iff.1 hl
        obtain ⟨σ', rfl⟩ := List.length_eq_one_iff.1 hl'
        exact ⟨σ, σ', rfl, rfl, fun h => hne (by rw [h])⟩
    have e14 : midParams.chal.toNat = 14 := by decide
    rw [e14, le_div_iff₀ (by norm_num)]
    refine le_trans ?_ hlow
    norm_num

end PJC.VrfUnique
