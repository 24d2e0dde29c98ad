import Verif.Lemmas.Pedersen
/-
C49-C53, C69: Pedersen commitments over Z_n, their parameters and the parameter proofs.

Specification (in Lemmas/Pedersen.lean): `commitment gs h n ms r` is
`g_0^{m_0} * g_1^{m_1} * ... * h^r mod n`; `Valid gs ms r` says that there are no more messages
than generators and nothing is negative; `addVec` is the componentwise sum.
-/
namespace PJC.Ped
open PJC.Props

/-! ### C49 -/

/-- **C49**.  `Create` succeeds for every modulus above 1, every list of generators and every
table size from 1 to 30.  On the object made, committing to acceptable messages gives the product
of powers, `Verify` accepts exactly that value, and anything unacceptable is refused by both. -/
theorem C49_commit_verify (gs : List Int) (h n : Int) (k : Nat) (hn : 1 < n) (hk : 1 ≤ k)
    (hk' : k < 31) : ∃ p, create gs h n k = .ok p ∧ ∀ (ms : List Int) (r : Int),
      (Valid gs ms r →
        commitWithRand p ms r = .ok (commitment gs h n ms r) ∧
        (∀ c, verify p c ms r = .ok (decide (c = commitment gs h n ms r)))) ∧
      (¬ Valid gs ms r → commitWithRand p ms r = .err .invalidArgument ∧
        ∀ c, verify p c ms r = .err .invalidArgument) := by
  obtain ⟨p, hp, G⟩ := create_good (gs := gs) (h := h) hn hk hk'
  exact ⟨p, hp, fun ms r => ⟨fun v => ⟨G.commit v, G.verify v⟩,
    fun v => ⟨(G.refuse v 0).1, fun c => (G.refuse v c).2⟩⟩⟩

/-- **C49**, `Commit`: the commitment returned verifies with the opening returned, for every
random draw. -/
theorem C49_commit_opens (gs : List Int) (h n : Int) (k : Nat) (hn : 1 < n) (hk : 1 ≤ k)
    (hk' : k < 31) (p : Pedersen) (hp : create gs h n k = .ok p) (ms : List Int)
    (hl : ms.length ≤ gs.length) (hms : ∀ m ∈ ms, 0 ≤ m) (w : Nat) :
    ∃ c r, commit p ms w = .ok (c, r) ∧ 0 ≤ r ∧ r < n ∧ verify p c ms r = .ok true := by
  obtain ⟨p', hp', G⟩ := create_good (gs := gs) (h := h) hn hk hk'
  rw [hp] at hp'
  cases hp'
  have h0 : 0 ≤ (w : Int) % n := Int.emod_nonneg _ (by omega)
  have v : Valid gs ms ((w : Int) % n) := ⟨hl, hms, h0⟩
  refine ⟨commitment gs h n ms ((w : Int) % n), (w : Int) % n, ?_, h0, Int.emod_lt_of_pos _ (by omega), ?_⟩
  · unfold Ped.commit
    rw [G.n_eq, Ctx.randLessThan, if_neg (by omega), Res.ok_bind, G.commit v]
    rfl
  · rw [G.verify v]
    simp

/-- The bound on the table size is needed: a size of 0 aborts. -/
theorem C49_zero_table (gs : List Int) (h n : Int) : create gs h n 0 = .crash := by
  simp [create, SimExp.create]

example : (do let p ← create [2, 3] 5 77 10; commitWithRand p [4, 1] 3) = .ok (2 ^ 4 * 3 * 5 ^ 3 % 77) ∧
    (do let p ← create [2, 3] 5 77 10; verify p (2 ^ 4 * 5 ^ 3 % 77) [4] 3) = .ok true ∧
    (do let p ← create [2, 3] 5 77 10; verify p (2 ^ 4 * 5 ^ 3 % 77) [5] 3) = .ok false ∧
    (do let p ← create [2, 3] 5 77 10; verify p 1 [5, 0, 0] 3) = .err .invalidArgument := by
  decide +kernel

/-! ### C50 -/

/-- **C50**, `Add`: if two commitments open to `ms`, `r` and `ms'`, `r'`, their sum opens to the
componentwise sum of the messages and `r + r'`. -/
theorem C50_add (gs : List Int) (h n : Int) (k : Nat) (hn : 1 < n) (hk : 1 ≤ k) (hk' : k < 31)
    (p : Pedersen) (hp : create gs h n k = .ok p) (c c' : Int) (ms ms' : List Int) (r r' : Int)
    (h1 : verify p c ms r = .ok true) (h2 : verify p c' ms' r' = .ok true) :
    ∃ d, add p c c' = .ok d ∧ verify p d (addVec ms ms') (r + r') = .ok true := by
  obtain ⟨p', hp', G⟩ := create_good (gs := gs) (h := h) hn hk hk'
  rw [hp] at hp'
  cases hp'
  have v : Valid gs ms r := by
    by_contra v
    rw [(G.refuse v c).2] at h1
    cases h1
  have v' : Valid gs ms' r' := by
    by_contra v
    rw [(G.refuse v c').2] at h2
    cases h2
  rw [G.verify v] at h1
  rw [G.verify v'] at h2
  simp only [Res.ok.injEq, decide_eq_true_eq] at h1 h2
  have v'' : Valid gs (addVec ms ms') (r + r') := by
    refine ⟨?_, addVec_nonneg v.msgs v'.msgs, Int.add_nonneg v.rand v'.rand⟩
    rw [addVec_length]
    exact max_le v.len v'.len
  refine ⟨c * c' % n, ?_, ?_⟩
  · unfold Ped.add BN.modMul BN.mod
    rw [G.n_eq, if_neg (by omega)]
  · rw [G.verify v'', commitment_add v v', h1, h2]
    simp

/-- **C50**, `Multiply`: if a commitment opens to `ms` and `r`, its multiple by a nonnegative
scalar opens to the multiples.  A negative scalar aborts. -/
theorem C50_multiply (gs : List Int) (h n : Int) (k : Nat) (hn : 1 < n) (hk : 1 ≤ k) (hk' : k < 31)
    (p : Pedersen) (hp : create gs h n k = .ok p) (c : Int) (ms : List Int) (r : Int)
    (h1 : verify p c ms r = .ok true) (a : Int) :
    (0 ≤ a → ∃ d, multiply p c a = .ok d ∧ verify p d (ms.map (a * ·)) (a * r) = .ok true) ∧
    (a < 0 → multiply p c a = .crash) := by
  obtain ⟨p', hp', G⟩ := create_good (gs := gs) (h := h) hn hk hk'
  rw [hp] at hp'
  cases hp'
  have v : Valid gs ms r := by
    by_contra v
    rw [(G.refuse v c).2] at h1
    cases h1
  rw [G.verify v] at h1
  simp only [Res.ok.injEq, decide_eq_true_eq] at h1
  refine ⟨fun ha => ⟨c ^ a.toNat % n, ?_, ?_⟩, fun ha => ?_⟩
  · unfold Ped.multiply BN.modExp
    rw [G.n_eq, if_neg (by omega), if_neg (by omega)]
  · have v' : Valid gs (ms.map (a * ·)) (a * r) := by
      refine ⟨by simpa using v.len, ?_, mul_nonneg ha v.rand⟩
      intro m hm
      obtain ⟨x, hx, rfl⟩ := List.mem_map.1 hm
      exact mul_nonneg ha (v.msgs x hx)
    rw [G.verify v', commitment_mul ha v, h1]
    simp
  · unfold Ped.multiply BN.modExp
    rw [if_pos ha]

example : (do let p ← create [2, 3] 5 77 10
              let c ← commitWithRand p [4, 1] 3
              let c' ← commitWithRand p [2] 6
              let d ← add p c c'
              let d ← multiply p d 3
              verify p d [18, 3] 27) = .ok true := by decide +kernel

/-! ### C51 -/

/-- **C51**.  Every proof made by `ProveParametersCorrectlyGenerated` is accepted by
`VerifyParamsProof`, for every hash function, all draws and all parameters. -/
theorem C51_complete (H : Hashes) (g h n r reps zk : Int) (draws : Nat → Nat) (π : ProofOfGen)
    (hp : prove H g h n r reps zk draws = .ok π) : verifyProof H g h n π = .ok () := by
  unfold prove at hp
  split at hp
  · cases hp
  · rename_i hreps
    split at hp
    · cases hp
    · split at hp
      · cases hp
      · rename_i hgcd
        simp only [Res.bind_eq_ok] at hp
        obtain ⟨hr, hhr, hp⟩ := hp
        split at hp
        · cases hp
        · rename_i hg
          push Not at hg hgcd hreps
          simp only [Res.bind_eq_ok] at hp
          obtain ⟨ds, hds, cs, hcs, hp⟩ := hp
          simp only [Res.pure_eq, Res.ok.injEq] at hp
          subst hp
          obtain ⟨hlen, hd⟩ := dummies_ok hds
          rw [List.length_map, List.length_range] at hlen
          have hcl := genProofChallenge_length hcs
          have hpos : 0 < ds.length := by omega
          have hn : 0 < n := (hd _ (List.getElem_mem hpos)).1
          unfold BN.modExp at hhr
          split at hhr
          · cases hhr
          · rename_i hr0
            rw [if_neg (by omega)] at hhr
            cases hhr
            unfold verifyProof
            simp only
            rw [if_neg (by omega), if_neg (by simp; omega),
              if_neg (by simp [hcl, hlen]; omega), if_neg (by simpa using hgcd), hcs, Res.ok_bind]
            exact verifyLoop_complete (by omega) hg hn cs ds (by omega) (fun d hd' => (hd d hd').2)

/-- **C51**: the prover succeeds on valid parameters, for up to 129000 repetitions (the hash
function is then asked for less than its supported output). -/
theorem C51_prover_succeeds (H : Hashes) (h n r reps zk : Int) (draws : Nat → Nat) (hn : 0 < n)
    (hh : 0 ≤ h) (hgcd : Int.gcd h n = 1) (hr : 0 ≤ r) (hreps : 0 < reps) (hreps' : reps ≤ 129000)
    (hzk : 0 < zk) : ∃ π, prove H (h ^ r.toNat % n) h n r reps zk draws = .ok π := by
  obtain ⟨ds, hds⟩ := dummies_total (h := h) hn (by omega : 0 ≤ 1 + zk) ((List.range reps.toNat).map draws)
  obtain ⟨_, hd⟩ := dummies_ok hds
  obtain ⟨b, hb⟩ := transcript_ok (ds := ds.map Prod.snd) (Int.emod_nonneg (h ^ r.toNat) (by omega : n ≠ 0)) hh hn.le (by
    intro d hd'
    obtain ⟨x, hx, rfl⟩ := List.mem_map.1 hd'
    rw [(hd x hx).2.2]
    exact Int.emod_nonneg _ (by omega))
  obtain ⟨c, hc, -⟩ := oracle_ok H b (len := reps.toNat) (by omega)
  obtain ⟨bs, hbs, -⟩ := bitsLoop_ok reps.toNat c
  have hch : genProofChallenge H (h ^ r.toNat % n) h n (ds.map Prod.snd) reps = .ok bs := by
    unfold genProofChallenge
    rw [hb, Res.ok_bind, BN.lshift, if_neg (by omega), Res.ok_bind, one_mul, hc, Res.ok_bind, hbs]
  refine ⟨⟨reps, ds.map Prod.snd,
    List.zipWith (fun c (d : Int × Int) => if c then d.1 + r else d.1) bs ds⟩, ?_⟩
  unfold prove
  rw [if_neg (by omega), if_neg (by omega), if_neg (by simp [BN.gcd, hgcd]), BN.modExp,
    if_neg (by omega), if_neg (by omega), Res.ok_bind]
  simp only [ne_eq, not_true_eq_false, if_false]
  rw [hds, Res.ok_bind, hch, Res.ok_bind]
  rfl

/-- **C51**, the variant for trusted moduli. -/
theorem C51_complete_trusted (H : Hashes) (g h n r len zk : Int) (w : Nat) (π : TrustedProof)
    (hp : proveTrusted H g h n r len zk w = .ok π) : verifyTrusted H g h n π = .ok () := by
  unfold proveTrusted at hp
  split at hp
  · cases hp
  · rename_i hlen
    split at hp
    · cases hp
    · split at hp
      · cases hp
      · rename_i hgcd
        simp only [Res.bind_eq_ok] at hp
        obtain ⟨hr, hhr, hp⟩ := hp
        split at hp
        · cases hp
        · rename_i hg
          push Not at hg hgcd hlen
          simp only [Res.bind_eq_ok] at hp
          obtain ⟨b, hb, d, hd, dg, hdg, c, hc, hp⟩ := hp
          simp only [Res.pure_eq, Res.ok.injEq] at hp
          subst hp
          unfold BN.lshift at hb
          rw [if_neg (by omega)] at hb
          cases hb
          unfold Ctx.randLessThan at hd
          split at hd
          · cases hd
          · rename_i hb
            push Not at hb
            have hn : 0 < n := by
              by_contra hc
              have : n * 2 ^ (len + zk).toNat ≤ 0 :=
                mul_nonpos_of_nonpos_of_nonneg (by omega) (by positivity)
              omega
            have hd0 : 0 ≤ d := by cases hd; exact Int.emod_nonneg _ (by omega)
            have hc0 : 0 ≤ c := by
              unfold trustedChallenge at hc
              simp only [Res.bind_eq_ok] at hc
              obtain ⟨bs, _, bd, hbd, hc⟩ := hc
              unfold BN.lshift at hbd
              rw [if_neg (by omega), one_mul] at hbd
              cases hbd
              exact (oracle_nonneg hc).1
            unfold BN.modExp at hhr hdg
            rw [if_neg (by omega), if_neg (by omega)] at hdg
            cases hdg
            split at hhr
            · cases hhr
            · rename_i hr0
              rw [if_neg (by omega)] at hhr
              cases hhr
              push Not at hr0
              have hcr : 0 ≤ c * r := mul_nonneg hc0 hr0
              unfold verifyTrusted
              simp only
              rw [if_neg (by omega), if_neg (by simpa using hgcd), hc, Res.ok_bind, BN.modExp,
                if_neg (by omega), if_neg (by omega), Res.ok_bind, BN.modExp, if_neg (by omega),
                if_neg (by omega), Res.ok_bind, BN.modMul, BN.mod, if_neg (by omega), Res.ok_bind,
                if_neg]
              push Not
              rw [hg, emod_eq_iff hn, Int.toNat_add hd0 hcr, Int.toNat_mul hc0 hr0]
              have e : ∀ x : Int, ((x % n : Int) : ZMod n.toNat) = (x : ZMod n.toNat) :=
                fun x => (emod_eq_iff hn).1 (Int.emod_emod_of_dvd _ dvd_rfl)
              push_cast [e]
              ring

/-- **C51**: the prover for trusted moduli succeeds on valid parameters. -/
theorem C51_prover_succeeds_trusted (H : Hashes) (h n r len zk : Int) (w : Nat) (hn : 0 < n)
    (hh : 0 ≤ h) (hgcd : Int.gcd h n = 1) (hr : 0 ≤ r) (hlen : 0 < len) (hlen' : len ≤ 129000)
    (hzk : 0 < zk) : ∃ π, proveTrusted H (h ^ r.toNat % n) h n r len zk w = .ok π := by
  have hb : 0 < n * 2 ^ (len + zk).toNat := by positivity
  have hd0 : 0 ≤ (w : Int) % (n * 2 ^ (len + zk).toNat) := Int.emod_nonneg _ (by omega)
  obtain ⟨b, hb'⟩ := transcript_ok (g := h ^ r.toNat % n) (h := h) (n := n)
    (ds := [h ^ ((w : Int) % (n * 2 ^ (len + zk).toNat)).toNat % n])
    (Int.emod_nonneg _ (by omega)) hh hn.le (by
      intro d hd
      rw [List.mem_singleton] at hd
      rw [hd]
      exact Int.emod_nonneg _ (by omega))
  obtain ⟨c, hc, -⟩ := oracle_ok H b (len := len.toNat) (by omega)
  refine ⟨⟨len, h ^ ((w : Int) % (n * 2 ^ (len + zk).toNat)).toNat % n,
    (w : Int) % (n * 2 ^ (len + zk).toNat) + c * r⟩, ?_⟩
  unfold proveTrusted
  rw [if_neg (by omega), if_neg (by omega), if_neg (by simp [BN.gcd, hgcd]), BN.modExp,
    if_neg (by omega), if_neg (by omega), Res.ok_bind]
  simp only [ne_eq, not_true_eq_false, if_false]
  rw [BN.lshift, if_neg (by omega), Res.ok_bind, Ctx.randLessThan, if_neg (by omega), Res.ok_bind,
    BN.modExp, if_neg (by omega), if_neg (by omega), Res.ok_bind, trustedChallenge, hb',
    Res.ok_bind, BN.lshift, if_neg (by omega), Res.ok_bind, one_mul, hc, Res.ok_bind]
  rfl

example : ∃ π, prove ⟨id, id, fun b => b.take 64, fun _ b => b⟩ (5 ^ 3 % 77) 5 77 3 20 1
    (fun i => 100 * i) = .ok π :=
  C51_prover_succeeds _ 5 77 3 20 1 _ (by decide) (by decide) (by decide) (by decide) (by decide)
    (by decide) (by decide)

/-! ### C52 -/

/-- What `VerifyParamsProof` checks. -/
theorem verifyProof_ok {H : Hashes} {g h n : Int} {p : ProofOfGen}
    (hv : verifyProof H g h n p = .ok ()) : ∃ cs, 0 < p.reps ∧
      (p.dummyGs.length : Int) = p.reps ∧ (p.responses.length : Int) = p.reps ∧ Int.gcd h n = 1 ∧
      genProofChallenge H g h n p.dummyGs p.reps = .ok cs ∧
      verifyLoop g h n cs p.dummyGs p.responses = .ok () := by
  unfold verifyProof at hv
  split at hv
  · cases hv
  · split at hv
    · cases hv
    · split at hv
      · cases hv
      · split at hv
        · cases hv
        · rename_i h1 h2 h3 h4
          simp only [Res.bind_eq_ok] at hv
          obtain ⟨cs, hcs, hv⟩ := hv
          push Not at h1 h2 h3 h4
          exact ⟨cs, h1, h2, h3, by simpa [BN.gcd] using h4, hcs, hv⟩

/-- **C52**.  Two accepted proofs with the same first messages whose challenges differ in some
repetition `i` (as two different random oracles would give) determine an exponent: the first
response is that of the challenge 1 and the second that of 0, `g * h^{s0} = h^{s1}`, and `g` is a
power of `h`. -/
theorem C52_special_soundness (H H' : Hashes) (g h n : Int) (π π' : ProofOfGen)
    (hv : verifyProof H g h n π = .ok ()) (hv' : verifyProof H' g h n π' = .ok ())
    (hd : π.dummyGs = π'.dummyGs) (cs cs' : List Bool)
    (hcs : genProofChallenge H g h n π.dummyGs π.reps = .ok cs)
    (hcs' : genProofChallenge H' g h n π'.dummyGs π'.reps = .ok cs')
    (i : Nat) (h1 : cs[i]? = some true) (h0 : cs'[i]? = some false) :
    ∃ s1 s0, π.responses[i]? = some s1 ∧ π'.responses[i]? = some s0 ∧ 0 ≤ s1 ∧ 0 ≤ s0 ∧
      (g * h ^ s0.toNat) % n = h ^ s1.toNat % n ∧ ∃ k : Nat, g % n = h ^ k % n := by
  obtain ⟨cs2, hr, hl, hl2, hg, hc, hloop⟩ := verifyProof_ok hv
  obtain ⟨cs2', hr', hl', hl2', hg', hc', hloop'⟩ := verifyProof_ok hv'
  rw [hcs] at hc
  rw [hcs'] at hc'
  cases hc
  cases hc'
  have hcl := genProofChallenge_length hcs
  have hi : i < cs.length := (List.getElem?_eq_some_iff.1 h1).1
  have hi2 : i < π.dummyGs.length := by omega
  have hdi := List.getElem?_eq_getElem hi2
  have hdi' : π'.dummyGs[i]? = some (π.dummyGs[i]) := by rw [← hd]; exact hdi
  obtain ⟨s1, e1, p1, hn1, q1⟩ := verifyLoop_sound hloop i true _ h1 hdi
  obtain ⟨s0, e0, p0, -, q0⟩ := verifyLoop_sound hloop' i false _ h0 hdi'
  simp only [if_true] at q1
  simp only [Bool.false_eq_true, if_false] at q0
  have hn : 0 < n := by
    unfold genProofChallenge at hcs
    simp only [Res.bind_eq_ok] at hcs
    obtain ⟨b, hb, -⟩ := hcs
    have := (transcript_pos hb).2.2
    omega
  have key : (h ^ s0.toNat * g) % n = h ^ s1.toNat % n := by
    rw [q1, ← q0]
    exact ((Int.mod_modEq _ n).mul_right g).symm
  refine ⟨s1, s0, e1, e0, p1, p0, by rw [mul_comm]; exact key, ?_⟩
  have : NeZero n.toNat := ⟨by omega⟩
  rw [emod_eq_iff hn] at key
  push_cast at key
  obtain ⟨k, hk⟩ := ratio_pow (isUnit_cast hn hg) key.symm
  refine ⟨k, ?_⟩
  rw [emod_eq_iff hn, hk]
  push_cast
  rfl

/-- What `VerifyParamsProofForTrustedModulus` checks. -/
theorem verifyTrusted_ok {H : Hashes} {g h n : Int} {p : TrustedProof}
    (hv : verifyTrusted H g h n p = .ok ()) : ∃ c, 0 < n ∧ Int.gcd h n = 1 ∧
      trustedChallenge H g h n p.dummyG p.challengeLength = .ok c ∧ 0 ≤ c ∧
      c < 2 ^ p.challengeLength.toNat ∧ 0 ≤ p.response ∧
      h ^ p.response.toNat % n = (g ^ c.toNat * p.dummyG) % n := by
  unfold verifyTrusted at hv
  split at hv
  · cases hv
  · split at hv
    · cases hv
    · rename_i h1 h2
      simp only [Res.bind_eq_ok] at hv
      obtain ⟨c, hc, a, ha, b, hb, d, hd, hv⟩ := hv
      split at hv
      · cases hv
      · rename_i h3
        push Not at h1 h2 h3
        have hc2 := hc
        unfold trustedChallenge at hc2
        simp only [Res.bind_eq_ok] at hc2
        obtain ⟨bs, hbs, bd, hbd, hc2⟩ := hc2
        unfold BN.lshift at hbd
        rw [if_neg (by omega), one_mul] at hbd
        cases hbd
        obtain ⟨hc0, hc1⟩ := oracle_nonneg hc2
        have hn0 := (transcript_pos hbs).2.2
        unfold BN.modExp at ha hb
        split at ha
        · cases ha
        · rename_i hr
          split at ha
          · cases ha
          · rename_i hnz
            cases ha
            rw [if_neg (by omega), if_neg hnz] at hb
            cases hb
            unfold BN.modMul BN.mod at hd
            rw [if_neg hnz] at hd
            cases hd
            refine ⟨c, by omega, by simpa [BN.gcd] using h2, hc, hc0, hc1, by omega, ?_⟩
            rw [h3, Int.mul_emod, Int.emod_emod_of_dvd _ dvd_rfl, ← Int.mul_emod]

/-- **C52**, the variant for trusted moduli: two accepted proofs with the same first message and
challenges `c' < c` give `g^{c - c'} * h^{s'} = h^s`, so that `g^{c - c'}` is a power of `h`. -/
theorem C52_special_soundness_trusted (H H' : Hashes) (g h n : Int) (π π' : TrustedProof)
    (hv : verifyTrusted H g h n π = .ok ()) (hv' : verifyTrusted H' g h n π' = .ok ())
    (hd : π.dummyG = π'.dummyG) (c c' : Int)
    (hc : trustedChallenge H g h n π.dummyG π.challengeLength = .ok c)
    (hc' : trustedChallenge H' g h n π'.dummyG π'.challengeLength = .ok c') (hlt : c' < c) :
    Int.gcd g n = 1 ∧
    (g ^ (c - c').toNat * h ^ π'.response.toNat) % n = h ^ π.response.toNat % n ∧
    ∃ k : Nat, g ^ (c - c').toNat % n = h ^ k % n := by
  obtain ⟨c2, hn, hg, hc2, p1, p2, p3, e⟩ := verifyTrusted_ok hv
  obtain ⟨c2', -, -, hc2', p1', p2', p3', e'⟩ := verifyTrusted_ok hv'
  rw [hc] at hc2
  rw [hc'] at hc2'
  cases hc2
  cases hc2'
  rw [← hd] at e'
  have hu := isUnit_cast hn hg
  have key : (g ^ (c - c').toNat * h ^ π'.response.toNat) % n = h ^ π.response.toNat % n := by
    rw [e, Int.mul_emod, e', ← Int.mul_emod, ← mul_assoc, ← pow_add]
    congr 4
    omega
  refine ⟨?_, key, ?_⟩
  · -- `h^s` is a unit, and it is divisible by `g` modulo `n`
    rw [← Int.isCoprime_iff_gcd_eq_one]
    have hco : IsCoprime (h ^ π.response.toNat) n :=
      (Int.isCoprime_iff_gcd_eq_one.2 hg).pow_left
    have h2 : IsCoprime (g ^ c.toNat * π.dummyG) n := by
      obtain ⟨t, ht⟩ := Int.ModEq.dvd (show g ^ c.toNat * π.dummyG ≡ h ^ π.response.toNat [ZMOD n] from e.symm)
      exact (IsCoprime.add_mul_left_left_iff (z := t)).1 (by rw [show g ^ c.toNat * π.dummyG + n * t = h ^ π.response.toNat by linarith]; exact hco)
    have h3 := h2.of_mul_left_left
    exact (IsCoprime.pow_left_iff (by omega)).1 h3
  · have : NeZero n.toNat := ⟨by omega⟩
    rw [emod_eq_iff hn] at key
    push_cast at key
    rw [mul_comm] at key
    obtain ⟨k, hk⟩ := ratio_pow hu key.symm
    refine ⟨k, ?_⟩
    rw [emod_eq_iff hn]
    push_cast
    exact hk

/-! #### Safe moduli -/

/-- Modulo a product of two safe primes the exponent of the unit group divides `2 p' q'`. -/
theorem safe_pow {p q p' q' : Nat} (hp : p.Prime) (hq : q.Prime) (ep : p = 2 * p' + 1)
    (eq : q = 2 * q' + 1) (hne : p ≠ q) {a : Int} (ha : Int.gcd a ((p : Int) * q) = 1) :
    a ^ (2 * (p' * q')) ≡ 1 [ZMOD (p : Int) * q] := by
  have hc := Int.isCoprime_iff_gcd_eq_one.2 ha
  have h1 : a ^ (2 * (p' * q')) ≡ 1 [ZMOD (p : Int)] := by
    have := Int.ModEq.pow_card_sub_one_eq_one hp (hc.of_mul_right_left)
    rw [show 2 * (p' * q') = (p - 1) * q' by rw [ep]; simp; ring, pow_mul]
    simpa using this.pow q'
  have h2 : a ^ (2 * (p' * q')) ≡ 1 [ZMOD (q : Int)] := by
    have := Int.ModEq.pow_card_sub_one_eq_one hq (hc.of_mul_right_right)
    rw [show 2 * (p' * q') = (q - 1) * p' by rw [eq]; simp; ring, pow_mul]
    simpa using this.pow p'
  refine (Int.modEq_and_modEq_iff_modEq_mul ?_).1 ⟨h1, h2⟩
  simpa using (Nat.coprime_primes hp hq).2 hne

/-- If `x^M = 1`, `d` is prime to `M` and `x^d` is a power of `h`, so is `x`. -/
theorem root_pow {N : Nat} {x h : ZMod N} {M d k : Nat} (hM : 1 < M) (hd : Nat.Coprime d M)
    (h1 : x ^ M = 1) (h2 : x ^ d = h ^ k) : ∃ k', x = h ^ k' := by
  obtain ⟨a, ha⟩ := Nat.exists_mul_mod_eq_one_of_coprime hd hM
  refine ⟨k * a, ?_⟩
  rw [pow_mul, ← h2, ← pow_mul]
  have : d * a = M * (d * a / M) + 1 := by
    have := Nat.div_add_mod (d * a) M
    omega
  rw [this, pow_succ, pow_mul, h1, one_pow, one_mul]

/-- **C52** for a trusted modulus, that is a product of two safe primes, with challenges shorter
than the primes `p'`, `q'`: the square of `g` is a power of `h`, and `g` itself is if it is a
quadratic residue. -/
theorem C52_safe_modulus (H H' : Hashes) (g h n : Int) (π π' : TrustedProof)
    (hv : verifyTrusted H g h n π = .ok ()) (hv' : verifyTrusted H' g h n π' = .ok ())
    (hd : π.dummyG = π'.dummyG) (c c' : Int)
    (hc : trustedChallenge H g h n π.dummyG π.challengeLength = .ok c)
    (hc' : trustedChallenge H' g h n π'.dummyG π'.challengeLength = .ok c') (hlt : c' < c)
    (p q p' q' : Nat) (hp : p.Prime) (hq : q.Prime) (hp' : p'.Prime) (hq' : q'.Prime)
    (ep : p = 2 * p' + 1) (eq : q = 2 * q' + 1) (hne : p ≠ q) (hn : n = (p : Int) * q)
    (hlp : 2 ^ π.challengeLength.toNat ≤ p') (hlq : 2 ^ π.challengeLength.toNat ≤ q') :
    (∃ k : Nat, g ^ 2 % n = h ^ k % n) ∧
    ∀ y : Int, g % n = y ^ 2 % n → ∃ k : Nat, g % n = h ^ k % n := by
  obtain ⟨hg, -, k, hk⟩ := C52_special_soundness_trusted H H' g h n π π' hv hv' hd c c' hc hc' hlt
  obtain ⟨c2, hnpos, -, hc2, p1, p2, -, -⟩ := verifyTrusted_ok hv
  rw [hc] at hc2
  cases hc2
  obtain ⟨c2', -, -, hc2', p1', -, -, -⟩ := verifyTrusted_ok hv'
  rw [hc'] at hc2'
  cases hc2'
  have hltp : (c - c').toNat < p' := by
    have h1 : (c : Int) < 2 ^ π.challengeLength.toNat := p2
    have h2 : ((2 ^ π.challengeLength.toNat : Nat) : Int) ≤ p' := by exact_mod_cast hlp
    push_cast at h2
    omega
  have hltq : (c - c').toNat < q' := by
    have h1 : (c : Int) < 2 ^ π.challengeLength.toNat := p2
    have h2 : ((2 ^ π.challengeLength.toNat : Nat) : Int) ≤ q' := by exact_mod_cast hlq
    push_cast at h2
    omega
  have hpos : 0 < (c - c').toNat := by omega
  have hcop : Nat.Coprime (c - c').toNat (p' * q') := by
    apply Nat.Coprime.mul_right
    · exact (Nat.coprime_of_lt_prime (by omega) hltp hp').symm
    · exact (Nat.coprime_of_lt_prime (by omega) hltq hq').symm
  have hM : 1 < p' * q' := Nat.one_lt_mul_iff.2 ⟨hp'.pos, hq'.pos, .inl hp'.one_lt⟩
  have cast_pow : ∀ {a : Int}, Int.gcd a n = 1 → (a : ZMod n.toNat) ^ (2 * (p' * q')) = 1 := by
    intro a ha
    rw [hn] at ha
    have := safe_pow hp hq ep eq hne ha
    rw [← hn] at this
    have h2 := (emod_eq_iff hnpos).1 (show _ % _ = _ % _ from this)
    push_cast at h2
    exact h2
  rw [emod_eq_iff hnpos] at hk
  push_cast at hk
  constructor
  · obtain ⟨k', hk'⟩ := root_pow (x := (g : ZMod n.toNat) ^ 2) (h := (h : ZMod n.toNat)) (k := k * 2)
      hM hcop (by rw [← pow_mul]; exact cast_pow hg)
      (by rw [← pow_mul, mul_comm 2, pow_mul, hk, ← pow_mul])
    refine ⟨k', ?_⟩
    rw [emod_eq_iff hnpos]
    push_cast
    exact hk'
  · intro y hy
    have hyg : Int.gcd y n = 1 := by
      rw [← Int.isCoprime_iff_gcd_eq_one]
      have h1 : IsCoprime (y ^ 2) n := by
        obtain ⟨t, ht⟩ := Int.ModEq.dvd (show y ^ 2 ≡ g [ZMOD n] from hy.symm)
        refine (IsCoprime.add_mul_left_left_iff (z := t)).1 ?_
        rw [show y ^ 2 + n * t = g by linarith]
        exact Int.isCoprime_iff_gcd_eq_one.2 hg
      exact (IsCoprime.pow_left_iff (by omega)).1 h1
    rw [emod_eq_iff hnpos] at hy
    push_cast at hy
    obtain ⟨k', hk'⟩ := root_pow (x := (g : ZMod n.toNat)) (h := (h : ZMod n.toNat)) (k := k)
      hM hcop (by rw [hy, ← pow_mul]; exact cast_pow hyg) hk
    refine ⟨k', ?_⟩
    rw [emod_eq_iff hnpos]
    push_cast
    exact hk'

/-- Constant hash functions whose outputs are all zeros or all ones. -/
def constHash (b : Byte) : Hashes :=
  ⟨fun _ => List.replicate 32 b, fun _ => List.replicate 48 b, fun _ => List.replicate 64 b,
    fun _ _ => List.replicate 64 b⟩

/-- Two accepted proofs with the same first messages and different challenges. -/
example : genProofChallenge (constHash 255) (5 ^ 3 % 77) 5 77 [5 ^ 40 % 77, 5 ^ 41 % 77] 2 =
      .ok [true, true] ∧
    genProofChallenge (constHash 0) (5 ^ 3 % 77) 5 77 [5 ^ 40 % 77, 5 ^ 41 % 77] 2 =
      .ok [false, false] ∧
    verifyProof (constHash 255) (5 ^ 3 % 77) 5 77 ⟨2, [5 ^ 40 % 77, 5 ^ 41 % 77], [43, 44]⟩ = .ok () ∧
    verifyProof (constHash 0) (5 ^ 3 % 77) 5 77 ⟨2, [5 ^ 40 % 77, 5 ^ 41 % 77], [40, 41]⟩ = .ok () ∧
    verifyProof (constHash 0) (5 ^ 3 % 77) 5 77 ⟨2, [5 ^ 40 % 77, 5 ^ 41 % 77], [40, 44]⟩ =
      .err .invalidArgument := by
  decide +kernel

/-- The same for the trusted variant, with the safe primes 11 = 2 * 5 + 1 and 7 = 2 * 3 + 1 and
challenges of one bit. -/
example : trustedChallenge (constHash 255) (5 ^ 3 % 77) 5 77 (5 ^ 40 % 77) 1 = .ok 1 ∧
    trustedChallenge (constHash 0) (5 ^ 3 % 77) 5 77 (5 ^ 40 % 77) 1 = .ok 0 ∧
    verifyTrusted (constHash 255) (5 ^ 3 % 77) 5 77 ⟨1, 5 ^ 40 % 77, 43⟩ = .ok () ∧
    verifyTrusted (constHash 0) (5 ^ 3 % 77) 5 77 ⟨1, 5 ^ 40 % 77, 40⟩ = .ok () ∧
    2 ^ (1 : Int).toNat ≤ 3 ∧ Nat.Prime 5 ∧ Nat.Prime 3 := by
  refine ⟨by decide +kernel, by decide +kernel, by decide +kernel, by decide +kernel, by decide,
    by decide, by decide⟩

/-! ### C53 -/

theorem splitLoop_ok {α : Type} (input : List α) (sub : Nat) (hs : 0 < sub)
    (hlen : input.length < 2 ^ 31) : ∀ (k i : Nat), input.length ≤ (i + k) * sub →
    (0 < k → (i + k - 1) * sub < input.length) →
    ∃ pieces, splitLoop input sub k i = .ok pieces ∧ pieces.length = k ∧
      pieces.flatten = input.drop (i * sub) ∧
      ∀ j piece, pieces[j]? = some piece → piece ≠ [] ∧ piece.length ≤ sub ∧
        (j + 1 < k → piece.length = sub) := by
  intro k
  induction k with
  | zero =>
    intro i h1 _
    refine ⟨[], rfl, rfl, ?_, by simp⟩
    rw [Nat.add_zero] at h1
    rw [List.drop_eq_nil_of_le h1]
    rfl
  | succ k ih =>
    intro i h1 h2
    have h2' := h2 (by omega)
    rw [show i + (k + 1) - 1 = i + k by omega] at h2'
    have hi : i * sub < input.length :=
      lt_of_le_of_lt (Nat.mul_le_mul_right sub (Nat.le_add_right i k)) h2'
    obtain ⟨pieces, e1, e2, e3, e4⟩ := ih (i + 1)
      (by rw [show i + 1 + k = i + (k + 1) by omega]; exact h1)
      (by intro _; rw [show i + 1 + k - 1 = i + k by omega]; exact h2')
    refine ⟨((input.take (min input.length (i * sub + sub))).drop (i * sub)) :: pieces, ?_, by simp [e2],
      ?_, ?_⟩
    · rw [splitLoop, if_neg (by omega), e1]
      rfl
    · rw [List.flatten_cons, e3, Nat.succ_mul]
      by_cases h : i * sub + sub ≤ input.length
      · rw [min_eq_right h, List.drop_take, Nat.add_sub_cancel_left, ← List.drop_drop]
        exact List.take_append_drop _ _
      · rw [min_eq_left (by omega), List.take_length, List.drop_eq_nil_of_le (by omega : input.length ≤ i * sub + sub),
          List.append_nil]
    · intro j piece hj
      cases j with
      | zero =>
        simp only [List.getElem?_cons_zero, Option.some.injEq] at hj
        subst hj
        have hl : ((input.take (min input.length (i * sub + sub))).drop (i * sub)).length =
            min input.length (i * sub + sub) - i * sub := by simp
        refine ⟨?_, by omega, ?_⟩
        · intro h
          rw [h] at hl
          simp only [List.length_nil] at hl
          omega
        · intro hk
          have : (i + 1) * sub ≤ (i + k) * sub := Nat.mul_le_mul_right sub (by omega)
          rw [Nat.succ_mul] at this
          omega
      | succ j =>
        simp only [List.getElem?_cons_succ] at hj
        obtain ⟨a, b, c⟩ := e4 j piece hj
        exact ⟨a, b, fun h => c (by omega)⟩

/-- **C53**.  For every vector (of less than 2^31 elements) and every positive size, `SplitVector`
returns pieces that concatenate to the input; none is empty or longer than the size, and all but
the last have exactly that size. -/
theorem C53_split {α : Type} (input : List α) (sub : Nat) (hs : 0 < sub)
    (hlen : input.length < 2 ^ 31) :
    ∃ pieces, splitVector input sub = .ok pieces ∧ pieces.flatten = input ∧
      ∀ j piece, pieces[j]? = some piece → piece ≠ [] ∧ piece.length ≤ sub ∧
        (j + 1 < pieces.length → piece.length = sub) := by
  have hdm := Nat.div_add_mod (input.length + sub - 1) sub
  have hml := Nat.mod_lt (input.length + sub - 1) hs
  have hc : input.length ≤ (0 + (input.length + sub - 1) / sub) * sub := by
    rw [Nat.zero_add, mul_comm]
    omega
  have hlast : 0 < (input.length + sub - 1) / sub →
      (0 + (input.length + sub - 1) / sub - 1) * sub < input.length := by
    intro hp
    obtain ⟨t, ht⟩ : ∃ t, (input.length + sub - 1) / sub = t + 1 := ⟨_, (Nat.succ_pred_eq_of_pos hp).symm⟩
    rw [ht] at hdm
    rw [ht, Nat.zero_add, Nat.add_sub_cancel, mul_comm]
    rw [Nat.mul_succ] at hdm
    omega
  obtain ⟨pieces, h1, h2, h3, h4⟩ := splitLoop_ok input sub hs hlen _ 0 hc hlast
  refine ⟨pieces, ?_, by simpa using h3, ?_⟩
  · unfold splitVector
    rw [if_neg (by omega), h1]
  · rw [h2]
    exact h4

/-- A size of 0 is undefined behaviour (division by zero). -/
theorem C53_zero_size {α : Type} (input : List α) : splitVector input 0 = .ub := rfl

example : splitVector [1, 2, 3, 4, 5, 6, 7] 3 = .ok [[1, 2, 3], [4, 5, 6], [7]] := by decide

/-! ### C69 -/

/-- Parameters that commitments may use: everything is in `(0, n)` and prime to `n`. -/
def WellFormed (p : PedersenParams) : Prop :=
  0 < p.n ∧ (∀ g ∈ p.gs, 0 < g ∧ g < p.n ∧ Int.gcd g p.n = 1) ∧
    0 < p.h ∧ p.h < p.n ∧ Int.gcd p.h p.n = 1

theorem badElement_eq {x n : Int} :
    badElement x n = false ↔ 0 < x ∧ x < n ∧ Int.gcd x n = 1 := by
  unfold badElement BN.gcd
  rw [decide_eq_false_iff_not]
  push Not
  constructor
  · rintro ⟨a, b, c⟩; exact ⟨a, b, by exact_mod_cast c⟩
  · rintro ⟨a, b, c⟩; exact ⟨a, b, by exact_mod_cast c⟩

theorem genLoop_spec {h n : Int} (hn : 4 ≤ n) : ∀ ws : List Nat,
    ∃ grs, genLoop h n ws = .ok grs ∧ grs.length = ws.length ∧
      ∀ x ∈ grs, x.1 = h ^ x.2.toNat % n ∧ 0 ≤ x.2 ∧ x.2 < n / 4
  | [] => ⟨[], rfl, rfl, by simp⟩
  | w :: ws => by
    obtain ⟨grs, h1, h2, h3⟩ := genLoop_spec (h := h) hn ws
    have hb : n.tdiv 4 = n / 4 := Int.tdiv_eq_ediv_of_nonneg (by omega)
    have h0 : 0 ≤ (w : Int) % (n / 4) := Int.emod_nonneg _ (by omega)
    have h4 : (w : Int) % (n / 4) < n / 4 := Int.emod_lt_of_pos _ (by omega)
    refine ⟨(h ^ ((w : Int) % (n / 4)).toNat % n, (w : Int) % (n / 4)) :: grs, ?_, by simp [h2], ?_⟩
    · unfold genLoop
      rw [BN.divAndTruncate, if_neg (by omega), Res.ok_bind, hb, Ctx.randLessThan, if_neg (by omega),
        Res.ok_bind, BN.modExp, if_neg (by omega), if_neg (by omega), Res.ok_bind, h1, Res.ok_bind]
      rfl
    · intro x hx
      rcases List.mem_cons.1 hx with rfl | hx
      · exact ⟨rfl, h0, h4⟩
      · exact h3 x hx

theorem gcd_pow_emod {h n : Int} (hg : Int.gcd h n = 1) (k : Nat) : Int.gcd (h ^ k % n) n = 1 := by
  rw [← Int.isCoprime_iff_gcd_eq_one]
  have h1 : IsCoprime (h ^ k) n := (Int.isCoprime_iff_gcd_eq_one.2 hg).pow_left
  have h2 : h ^ k % n + n * (h ^ k / n) = h ^ k := Int.emod_add_mul_ediv _ _
  exact (IsCoprime.add_mul_left_left_iff (z := h ^ k / n)).1 (by rw [h2]; exact h1)

theorem pos_of_gcd {x n : Int} (hn : 1 < n) (h0 : 0 ≤ x) (hg : Int.gcd x n = 1) : 0 < x := by
  rcases h0.lt_or_eq with h | h
  · exact h
  · rw [← h] at hg
    simp at hg
    omega

/-- **C69**, generation.  For every modulus of at least 4 and every draw prime to it,
`GenerateParameters` succeeds; the parameters are well formed, `h` is the square of the draw and
each `g_i` is `h^{r_i}` for the secret `r_i` returned.  The exponent can be proved: for any number
of repetitions the code supports, a proof is made for each `g_i` and it is accepted. -/
theorem C69_generated (n x : Int) (ws : List Nat) (hn : 4 ≤ n) (hx : Int.gcd x n = 1) :
    ∃ p, generateParameters n x ws = .ok p ∧ WellFormed p ∧ p.n = n ∧ p.h = x ^ 2 % n ∧
      p.gs.length = ws.length ∧ p.rs.length = ws.length ∧
      ∀ (i : Nat) (g r : Int), p.gs[i]? = some g → p.rs[i]? = some r →
        g = p.h ^ r.toNat % n ∧ 0 ≤ r ∧ r < n / 4 ∧
        ∀ (H : Hashes) (reps zk : Int) (draws : Nat → Nat), 0 < reps → reps ≤ 129000 → 0 < zk →
          ∃ π, prove H g p.h n r reps zk draws = .ok π ∧ verifyProof H g p.h n π = .ok () := by
  have hh : Int.gcd (x ^ 2 % n) n = 1 := gcd_pow_emod hx 2
  have hh0 : 0 ≤ x ^ 2 % n := Int.emod_nonneg _ (by omega)
  obtain ⟨grs, h1, h2, h3⟩ := genLoop_spec (h := x ^ 2 % n) hn ws
  refine ⟨⟨grs.map Prod.fst, x ^ 2 % n, n, grs.map Prod.snd⟩, ?_, ?_, rfl, rfl, by simp [h2],
    by simp [h2], ?_⟩
  · unfold generateParameters
    rw [BN.modSqr, BN.mod, if_neg (by omega), Res.ok_bind, ← pow_two, h1]
    rfl
  · refine ⟨by simp; omega, ?_, pos_of_gcd (by omega) hh0 hh, Int.emod_lt_of_pos _ (by omega), hh⟩
    intro g hg
    obtain ⟨y, hy, rfl⟩ := List.mem_map.1 hg
    rw [(h3 y hy).1]
    exact ⟨pos_of_gcd (by omega) (Int.emod_nonneg _ (by omega)) (gcd_pow_emod hh _),
      Int.emod_lt_of_pos _ (by omega), gcd_pow_emod hh _⟩
  · intro i g r hg hr
    simp only [List.getElem?_map, Option.map_eq_some_iff] at hg hr
    obtain ⟨y, hy, rfl⟩ := hg
    obtain ⟨y', hy', rfl⟩ := hr
    rw [hy] at hy'
    cases hy'
    obtain ⟨e1, e2, e3⟩ := h3 y (List.mem_of_getElem? hy)
    refine ⟨e1, e2, e3, ?_⟩
    intro H reps zk draws hr1 hr2 hz
    obtain ⟨π, hπ⟩ := C51_prover_succeeds H (x ^ 2 % n) n y.2 reps zk draws (by omega) hh0 hh e2 hr1 hr2 hz
    rw [← e1] at hπ
    exact ⟨π, hπ, C51_complete H _ _ _ _ _ _ _ _ hπ⟩

theorem mapM_toBytes_round : ∀ {l : List Int}, (∀ x ∈ l, 0 ≤ x) →
    ∃ bs, bigNumVectorToProto l = .ok bs ∧ parseBigNumVectorProto bs = l
  | [], _ => ⟨[], rfl, rfl⟩
  | a :: l, h => by
    obtain ⟨bs, h1, h2⟩ := mapM_toBytes_round (fun x hx => h x (List.mem_cons_of_mem _ hx) : ∀ x ∈ l, 0 ≤ x)
    unfold bigNumVectorToProto at h1 ⊢
    refine ⟨BN.natToBytes a.toNat :: bs, ?_, ?_⟩
    · rw [List.mapM_cons, BN.toBytes_of_nonneg (h a (by simp)), Res.ok_bind, h1]
      rfl
    · unfold parseBigNumVectorProto at h2 ⊢
      rw [List.map_cons, h2, BN.ofBytes_natToBytes, Int.toNat_of_nonneg (h a (by simp))]

/-- **C69**, serialization: well-formed parameters can be serialized, and parsing what was
serialized gives back `gs`, `h` and `n` (never the secret `rs`). -/
theorem C69_round_trip (p : PedersenParams) (hp : WellFormed p) :
    ∃ b, toProto p = .ok b ∧ parseProto b = .ok { p with rs := [] } := by
  obtain ⟨hn, hgs, hh0, hh1, hh2⟩ := hp
  obtain ⟨bs, h1, h2⟩ := mapM_toBytes_round (l := p.gs) (fun g hg => (hgs g hg).1.le)
  refine ⟨⟨BN.natToBytes p.n.toNat, bs, BN.natToBytes p.h.toNat⟩, ?_, ?_⟩
  · unfold toProto
    rw [BN.toBytes_of_nonneg hn.le, Res.ok_bind, h1, Res.ok_bind, BN.toBytes_of_nonneg hh0.le]
    rfl
  · unfold parseProto
    simp only
    rw [BN.ofBytes_natToBytes, Int.toNat_of_nonneg hn.le, if_neg (by omega), h2,
      BN.ofBytes_natToBytes, Int.toNat_of_nonneg hh0.le, if_neg, if_neg]
    · rw [badElement_eq.2 ⟨hh0, hh1, hh2⟩]
      decide
    · simp only [List.any_eq_true, not_exists, not_and]
      intro g hg
      rw [badElement_eq.2 (hgs g hg)]
      decide

/-- **C69**, `FromProto`: the committer made from serialized parameters is the one `Create` makes
from the parameters themselves. -/
theorem C69_from_proto (p : PedersenParams) (hp : WellFormed p) (k : Nat) :
    ∃ b, toProto p = .ok b ∧ fromProto b k = create p.gs p.h p.n k := by
  obtain ⟨b, h1, h2⟩ := C69_round_trip p hp
  exact ⟨b, h1, by rw [fromProto, h2, Res.ok_bind]⟩

/-- **C69**, hostile input: whatever bytes are parsed, the result is well formed or the call
returns INVALID_ARGUMENT. -/
theorem C69_parse_checks (b : PedersenProto) :
    parseProto b = .err .invalidArgument ∨ ∃ p, parseProto b = .ok p ∧ WellFormed p ∧
      p.gs.length = b.gs.length := by
  unfold parseProto
  simp only
  split
  · exact .inl rfl
  · split
    · exact .inl rfl
    · split
      · exact .inl rfl
      · rename_i h1 h2 h3
        refine .inr ⟨_, rfl, ⟨by simpa using h1, ?_, ?_⟩, by simp [parseBigNumVectorProto]⟩
        · intro g hg
          simp only [List.any_eq_true, not_exists, not_and] at h2
          exact badElement_eq.1 (by simpa using h2 g hg)
        · exact badElement_eq.1 (by simpa using h3)

example : ∃ p, generateParameters 77 3 [100, 7] = .ok p ∧ p = ⟨[9 ^ 5 % 77, 9 ^ 7 % 77], 9, 77, [5, 7]⟩ :=
  ⟨_, rfl, by decide⟩

end PJC.Ped
