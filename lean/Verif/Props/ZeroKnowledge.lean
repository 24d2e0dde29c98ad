import Verif.Lemmas.Stat
import Verif.Props.Pedersen
set_option linter.unusedSectionVars false
/-
C90: the proofs about Pedersen parameters are honest-verifier statistical zero-knowledge.

The hash function is a parameter, so a run in which the verifier's challenge is `c` is a run with
a hash function that answers `c` to the prover's first message.  The statements fix the challenge,
let the draws of the masks range over all their values, and compare the proofs with those of a
simulator that does not know the secret exponent.
-/
namespace PJC.Ped
open PJC.Stat

/-- A draw inside the bound is the value drawn. -/
theorem randLessThan_lt {w b : Nat} (h : w < b) : Ctx.randLessThan w (b : Int) = .ok (w : Int) := by
  unfold Ctx.randLessThan
  rw [if_neg (by omega), Int.emod_eq_of_lt (by omega) (by omega)]

theorem cast_bound {n : Int} (hn : 0 < n) (k : Nat) : ((n.toNat * 2 ^ k : Nat) : Int) = n * 2 ^ k := by
  push_cast
  rw [Int.toNat_of_nonneg hn.le]

/-- Specification: a simulated proof for trusted moduli, made from the challenge `c` and the
response `z` without the secret; `gi` is the inverse of `g` modulo `n`. -/
def simTrusted (gi h n len : Int) (c z : Nat) : TrustedProof :=
  ⟨len, h ^ z * gi ^ c % n, (z : Int)⟩

theorem proveTrusted_eq (H : Hashes) (h n r len zk : Int) (hn : 0 < n) (hgcd : Int.gcd h n = 1)
    (hr : 0 ≤ r) (hlen : 0 < len) (hzk : 0 < zk) (w : Nat)
    (hw : w < n.toNat * 2 ^ (len + zk).toNat) :
    proveTrusted H (h ^ r.toNat % n) h n r len zk w = (do
      let c ← trustedChallenge H (h ^ r.toNat % n) h n (h ^ w % n) len
      return ⟨len, h ^ w % n, (w : Int) + c * r⟩) := by
  unfold proveTrusted
  rw [if_neg (by omega), if_neg (by omega), if_neg (by simp [BN.gcd, hgcd]), BN.modExp,
    if_neg (by omega), if_neg (by omega), Res.ok_bind]
  simp only [ne_eq, not_true_eq_false, if_false]
  rw [BN.lshift, if_neg (by omega), Res.ok_bind, ← cast_bound hn, randLessThan_lt hw, Res.ok_bind,
    BN.modExp, if_neg (by omega), if_neg (by omega), Res.ok_bind, Int.toNat_natCast]

theorem trustedChallenge_range {H : Hashes} {g h n d len c : Int} (hl : 0 ≤ len)
    (hc : trustedChallenge H g h n d len = .ok c) : 0 ≤ c ∧ c < 2 ^ len.toNat := by
  unfold trustedChallenge at hc
  simp only [Res.bind_eq_ok] at hc
  obtain ⟨bs, _, bd, hbd, hc⟩ := hc
  unfold BN.lshift at hbd
  rw [if_neg (by omega), one_mul] at hbd
  cases hbd
  exact oracle_nonneg hc

/-- **C90**, trusted moduli.  Fix the challenge `c`; for each draw of the mask let the hash function
be any that leads to that challenge.  With the mask uniform below its bound, the proof is distributed
like the simulator's up to a statistical distance of `2 ^ -zk`. -/
theorem C90_trusted (h n r len zk gi : Int) (hn : 0 < n) (hh : 0 ≤ h) (hgcd : Int.gcd h n = 1)
    (hr : 0 ≤ r) (hrn : r < n) (hlen : 0 < len) (hlen' : len ≤ 129000) (hzk : 0 < zk)
    (hgi : h ^ r.toNat * gi % n = 1 % n) (c : Nat) (H : (Fin 1 → Nat) → Hashes)
    (hc : ∀ a ∈ Box (fun _ : Fin 1 => n.toNat * 2 ^ (len + zk).toNat), ∀ π,
      proveTrusted (H a) (h ^ r.toNat % n) h n r len zk (a 0) = .ok π →
      trustedChallenge (H a) (h ^ r.toNat % n) h n π.dummyG len = .ok (c : Int)) :
    StatClose (Box fun _ : Fin 1 => n.toNat * 2 ^ (len + zk).toNat)
      (fun a => proveTrusted (H a) (h ^ r.toNat % n) h n r len zk (a 0))
      (fun a => .ok (simTrusted gi h n len c (a 0))) 1 (2 ^ zk.toNat) := by
  have hpos : 0 < n.toNat * 2 ^ (len + zk).toNat := by
    have : 0 < n.toNat := by omega
    positivity
  have run : ∀ a ∈ Box (fun _ : Fin 1 => n.toNat * 2 ^ (len + zk).toNat),
      proveTrusted (H a) (h ^ r.toNat % n) h n r len zk (a 0) =
        .ok ⟨len, h ^ (a 0) % n, (a 0 : Int) + c * r⟩ ∧ c < 2 ^ len.toNat := by
    intro a ha
    have h1 := proveTrusted_eq (H a) h n r len zk hn hgcd hr hlen hzk (a 0) (mem_box.1 ha 0)
    obtain ⟨π, hπ⟩ := C51_prover_succeeds_trusted (H a) h n r len zk (a 0) hn hh hgcd hr hlen hlen' hzk
    have h2 := hc a ha π hπ
    rw [h1] at hπ
    rw [h1]
    simp only [Res.bind_eq_ok, Res.pure_eq, Res.ok.injEq] at hπ
    obtain ⟨c', hc', rfl⟩ := hπ
    rw [hc'] at h2
    cases h2
    have := trustedChallenge_range hlen.le hc'
    refine ⟨by rw [hc', Res.ok_bind]; rfl, ?_⟩
    exact_mod_cast this.2
  have hz : (fun _ : Fin 1 => 0) ∈ Box (fun _ : Fin 1 => n.toNat * 2 ^ (len + zk).toNat) :=
    mem_box.2 fun _ => hpos
  have hclt := (run _ hz).2
  have key := close_of_shift (fun _ : Fin 1 => n.toNat * 2 ^ (len + zk).toNat)
    (fun _ => c * r.toNat) (fun _ => 1) (2 ^ zk.toNat) (fun _ => hpos) (by
      intro _
      have e : (len + zk).toNat = len.toNat + zk.toNat := by omega
      rw [e, pow_add, one_mul, ← mul_assoc, mul_comm n.toNat]
      exact Nat.mul_le_mul_right _ (Nat.mul_le_mul hclt.le (by omega)))
    (fun a => proveTrusted (H a) (h ^ r.toNat % n) h n r len zk (a 0))
    (fun a => .ok (simTrusted gi h n len c (a 0))) (by
      intro a ha _
      dsimp only
      rw [(run a ha).1]
      unfold simTrusted
      have e1 : ((a 0 + c * r.toNat : Nat) : Int) = (a 0 : Int) + c * r := by
        push_cast; rw [Int.toNat_of_nonneg hr]
      have e2 : h ^ (a 0 + c * r.toNat) * gi ^ c % n = h ^ (a 0) % n := by
        have : h ^ (a 0 + c * r.toNat) * gi ^ c = h ^ (a 0) * (h ^ r.toNat * gi) ^ c := by
          rw [pow_add, mul_comm c, pow_mul, mul_pow]; ring
        rw [this]
        have h3 : (h ^ r.toNat * gi) ^ c ≡ 1 ^ c [ZMOD n] := Int.ModEq.pow c hgi
        rw [one_pow] at h3
        have h4 := h3.mul_left (h ^ (a 0))
        rw [mul_one] at h4
        exact h4
      rw [e1, e2])
  simpa using key

/-- **C90**: simulated proofs are accepted when the hash function answers the challenge they were
made for. -/
theorem C90_trusted_accepted (H : Hashes) (g h n len gi : Int) (hn : 0 < n)
    (hgcd : Int.gcd h n = 1) (hlen : 0 < len) (hgi : g * gi % n = 1 % n) (c z : Nat)
    (hc : trustedChallenge H g h n (simTrusted gi h n len c z).dummyG len = .ok (c : Int)) :
    verifyTrusted H g h n (simTrusted gi h n len c z) = .ok () := by
  unfold verifyTrusted
  rw [if_neg (show ¬ (simTrusted gi h n len c z).challengeLength ≤ 0 from not_le.2 hlen),
    if_neg (by simp [BN.gcd, hgcd])]
  simp only [simTrusted] at hc ⊢
  rw [hc, Res.ok_bind, BN.modExp,
    if_neg (by omega), if_neg (by omega), Res.ok_bind, BN.modExp, if_neg (by omega),
    if_neg (by omega), Res.ok_bind, BN.modMul, BN.mod, if_neg (by omega), Res.ok_bind, if_neg]
  push Not
  simp only [Int.toNat_natCast]
  rw [← Int.mul_emod]
  have h3 : (g * gi) ^ c ≡ 1 ^ c [ZMOD n] := Int.ModEq.pow c hgi
  rw [one_pow, mul_pow] at h3
  have h4 := h3.mul_left (h ^ z)
  rw [mul_one] at h4
  rw [show g ^ c * (h ^ z * gi ^ c) = h ^ z * (g ^ c * gi ^ c) by ring]
  exact h4.symm

/-! ### Any modulus: one bit per repetition -/

/-- Specification: a simulated proof, made from the challenge bits `cs` and the responses `z`. -/
def simProof (gi h n : Int) (cs : List Bool) (z : Fin cs.length → Nat) : ProofOfGen :=
  ⟨cs.length, List.ofFn fun i => h ^ z i * (if cs[i] then gi else 1) % n,
    List.ofFn fun i => (z i : Int)⟩

theorem dummies_eq {h n zk : Int} (hn : 0 < n) (hz : 0 ≤ 1 + zk) : ∀ ws : List Nat,
    (∀ w ∈ ws, w < n.toNat * 2 ^ (1 + zk).toNat) →
    dummies h n zk ws = .ok (ws.map fun w : Nat => ((w : Int), h ^ w % n))
  | [], _ => rfl
  | w :: ws, hw => by
    have ih := dummies_eq (h := h) hn hz ws (fun x hx => hw x (by simp [hx]))
    unfold dummies
    simp only [BN.lshift]
    rw [if_neg (by omega), Res.ok_bind, ← cast_bound hn, randLessThan_lt (hw w (by simp)),
      Res.ok_bind, BN.modExp, if_neg (by omega), if_neg (by omega), Res.ok_bind, ih, Res.ok_bind]
    simp

/-- The draws of the repetitions, as the argument of the model. -/
def drawsOf {k : Nat} (a : Fin k → Nat) (i : Nat) : Nat := if h : i < k then a ⟨i, h⟩ else 0

theorem map_drawsOf {k : Nat} (a : Fin k → Nat) : (List.range k).map (drawsOf a) = List.ofFn a := by
  apply List.ext_getElem
  · simp
  · intro i h1 h2
    have : i < k := by simpa using h1
    simp [drawsOf, this]

/-- **C90**, any modulus.  Fix the challenge bits; for each vector of draws let the hash function be
any that leads to them.  With the masks uniform below their bound, the proof is distributed like the
simulator's up to a statistical distance of `repetitions / 2 ^ (zk + 1)`. -/
theorem C90_parameters (h n r zk gi : Int) (hn : 0 < n) (hh : 0 ≤ h) (hgcd : Int.gcd h n = 1)
    (hr : 0 ≤ r) (hrn : r < n) (hzk : 0 < zk) (hgi : h ^ r.toNat * gi % n = 1 % n)
    (cs : List Bool) (hcs : 0 < cs.length) (hcs' : cs.length ≤ 129000)
    (H : (Fin cs.length → Nat) → Hashes)
    (hc : ∀ a ∈ Box (fun _ : Fin cs.length => n.toNat * 2 ^ (1 + zk).toNat), ∀ π,
      prove (H a) (h ^ r.toNat % n) h n r cs.length zk (drawsOf a) = .ok π →
      genProofChallenge (H a) (h ^ r.toNat % n) h n π.dummyGs cs.length = .ok cs) :
    StatClose (Box fun _ : Fin cs.length => n.toNat * 2 ^ (1 + zk).toNat)
      (fun a => prove (H a) (h ^ r.toNat % n) h n r cs.length zk (drawsOf a))
      (fun a => .ok (simProof gi h n cs a)) cs.length (2 ^ (1 + zk).toNat) := by
  have hpos : 0 < n.toNat * 2 ^ (1 + zk).toNat := by
    have : 0 < n.toNat := by omega
    positivity
  have run : ∀ a ∈ Box (fun _ : Fin cs.length => n.toNat * 2 ^ (1 + zk).toNat),
      prove (H a) (h ^ r.toNat % n) h n r cs.length zk (drawsOf a) =
        .ok ⟨cs.length, List.ofFn fun i => h ^ a i % n,
          List.ofFn fun i => (a i : Int) + if cs[i] then r else 0⟩ := by
    intro a ha
    obtain ⟨π, hπ⟩ := C51_prover_succeeds (H a) h n r cs.length zk (drawsOf a) hn hh hgcd hr
      (by omega) (by omega) hzk
    have h2 := hc a ha π hπ
    rw [hπ]
    unfold prove at hπ
    rw [if_neg (by omega), if_neg (by omega), if_neg (by simp [BN.gcd, hgcd]), BN.modExp,
      if_neg (by omega), if_neg (by omega), Res.ok_bind] at hπ
    simp only [ne_eq, not_true_eq_false, if_false] at hπ
    rw [Int.toNat_natCast, map_drawsOf, dummies_eq hn (by omega) _ (by
      intro w hw
      obtain ⟨i, rfl⟩ := List.mem_ofFn.1 hw
      exact mem_box.1 ha i), Res.ok_bind] at hπ
    simp only [Res.bind_eq_ok, Res.pure_eq, Res.ok.injEq] at hπ
    obtain ⟨cs', hcs', rfl⟩ := hπ
    rw [hcs'] at h2
    cases h2
    congr 2
    · apply List.ext_getElem
      · simp
      · intro i _ _; simp
    · apply List.ext_getElem
      · simp
      · intro i h1 h2
        have : i < cs.length := by simpa using h2
        simp only [List.getElem_zipWith, List.getElem_map, List.getElem_ofFn, Fin.getElem_fin]
        split <;> simp
  have key := close_of_shift (fun _ : Fin cs.length => n.toNat * 2 ^ (1 + zk).toNat)
    (fun i => if cs[i] then r.toNat else 0) (fun _ => 1) (2 ^ (1 + zk).toNat) (fun _ => hpos) (by
      intro i
      rw [one_mul]
      apply Nat.mul_le_mul_right
      split <;> omega)
    (fun a => prove (H a) (h ^ r.toNat % n) h n r cs.length zk (drawsOf a))
    (fun a => .ok (simProof gi h n cs a)) (by
      intro a ha _
      rw [run a ha]
      unfold simProof
      congr 2
      · congr 1
        funext i
        simp only [Fin.getElem_fin]
        by_cases hb : cs[i.val] = true
        · have h3 : h ^ r.toNat * gi ≡ 1 [ZMOD n] := hgi
          have h4 := h3.mul_left (h ^ a i)
          rw [mul_one] at h4
          simp only [hb, if_true]
          rw [pow_add, mul_assoc]
          exact h4.symm
        · simp [hb]
      · congr 1
        funext i
        simp only [Fin.getElem_fin]
        by_cases hb : cs[i.val] = true
        · simp only [hb, if_true]
          push_cast
          rw [Int.toNat_of_nonneg hr]
        · simp [hb])
  simpa using key

theorem verifyLoop_ofFn {g h n gi : Int} (hn : 0 < n) (hgi : g * gi % n = 1 % n) :
    ∀ (cs : List Bool) (z : Fin cs.length → Nat),
      verifyLoop g h n cs (List.ofFn fun i => h ^ z i * (if cs[i] then gi else 1) % n)
        (List.ofFn fun i => (z i : Int)) = .ok ()
  | [], _ => by simp [verifyLoop]
  | c :: cs, z => by
    have ih := verifyLoop_ofFn (h := h) hn hgi cs (fun i => z i.succ)
    simp only [List.length_cons, List.ofFn_succ, verifyLoop]
    have hgi' : g * gi ≡ 1 [ZMOD n] := hgi
    cases c with
    | false =>
      simp only [expected, Bool.false_eq_true, if_false, Res.ok_bind, BN.modExp]
      rw [if_neg (by omega), if_neg (by omega), Res.ok_bind, if_neg (by simp)]
      simpa using ih
    | true =>
      simp only [expected, if_true, BN.modMul, BN.mod, BN.modExp]
      rw [if_neg (by omega), Res.ok_bind, if_neg (by omega), if_neg (by omega), Res.ok_bind,
        if_neg]
      · simpa using ih
      · push Not
        simp only [Int.toNat_natCast, Fin.getElem_fin, Fin.val_zero, List.getElem_cons_zero, if_true]
        rw [Int.mul_emod, Int.emod_emod_of_dvd _ dvd_rfl, ← Int.mul_emod]
        have h4 := hgi'.mul_left (h ^ z 0)
        rw [mul_one] at h4
        rw [show h ^ z 0 * gi * g = h ^ z 0 * (g * gi) by ring]
        exact h4.symm

/-- **C90**: simulated proofs are accepted when the hash function answers the challenge they were
made for. -/
theorem C90_parameters_accepted (H : Hashes) (g h n gi : Int) (hn : 0 < n)
    (hgcd : Int.gcd h n = 1) (hgi : g * gi % n = 1 % n) (cs : List Bool) (hcs : 0 < cs.length)
    (z : Fin cs.length → Nat)
    (hc : genProofChallenge H g h n (simProof gi h n cs z).dummyGs cs.length = .ok cs) :
    verifyProof H g h n (simProof gi h n cs z) = .ok () := by
  unfold verifyProof
  rw [if_neg (show ¬ (simProof gi h n cs z).reps ≤ 0 by simp only [simProof]; omega),
    if_neg (by simp [simProof]), if_neg (by simp [simProof]), if_neg (by simp [BN.gcd, hgcd])]
  have hc' : genProofChallenge H g h n (simProof gi h n cs z).dummyGs (simProof gi h n cs z).reps
    = .ok cs := hc
  rw [hc', Res.ok_bind]
  exact verifyLoop_ofFn hn hgi cs z

/-! A hash function that ignores its input gives the same challenge to every first message: the
hypotheses of C90 are met for every choice of parameters. -/

/-- A hash function with a constant value. -/
def fixedHash (k : Bytes) : Hashes := ⟨fun _ => k, fun _ => k, fun _ => k, fun _ _ => k⟩

theorem oracleLoop_fixed (k : Bytes) (len : Nat) (x y : Bytes) : ∀ (m i : Nat) (acc : Int),
    Ctx.oracleLoop (fixedHash k).sha512 len x m i acc = Ctx.oracleLoop (fixedHash k).sha512 len y m i acc
  | 0, _, _ => rfl
  | m + 1, i, acc => by
    simp only [Ctx.oracleLoop]
    exact oracleLoop_fixed k len x y m _ _

theorem oracle_fixed (k x y : Bytes) (b : Int) :
    Ctx.randomOracleSha512 (fixedHash k) x b = Ctx.randomOracleSha512 (fixedHash k) y b := by
  unfold Ctx.randomOracleSha512 Ctx.randomOracle
  simp only [oracleLoop_fixed k 512 x y]

theorem trustedChallenge_fixed {k : Bytes} {g h n d len c c' : Int} (hl : 0 ≤ len)
    (h1 : trustedChallenge (fixedHash k) g h n d len = .ok c)
    (h2 : Ctx.randomOracleSha512 (fixedHash k) [] (2 ^ len.toNat) = .ok c') : c = c' := by
  unfold trustedChallenge at h1
  simp only [Res.bind_eq_ok] at h1
  obtain ⟨b, _, m, hm, h1⟩ := h1
  unfold BN.lshift at hm
  rw [if_neg (by omega), one_mul] at hm
  cases hm
  rw [oracle_fixed k b [], h2] at h1
  cases h1
  rfl

/-- The hypothesis of `C90_trusted` is met, for all parameters. -/
theorem trusted_met (k : Bytes) (h n r len zk : Int) (hn : 0 < n) (hgcd : Int.gcd h n = 1)
    (hr : 0 ≤ r) (hlen : 0 < len) (hlen' : len ≤ 129000) (hzk : 0 < zk) :
    ∃ c : Nat, Ctx.randomOracleSha512 (fixedHash k) [] (2 ^ len.toNat) = .ok (c : Int) ∧
      ∀ a ∈ Box (fun _ : Fin 1 => n.toNat * 2 ^ (len + zk).toNat), ∀ π,
      proveTrusted (fixedHash k) (h ^ r.toNat % n) h n r len zk (a 0) = .ok π →
      trustedChallenge (fixedHash k) (h ^ r.toNat % n) h n π.dummyG len = .ok (c : Int) := by
  obtain ⟨c, hc, h0, -⟩ := oracle_ok (fixedHash k) [] (len := len.toNat) (by omega)
  refine ⟨c.toNat, by rw [Int.toNat_of_nonneg h0]; exact hc, ?_⟩
  intro a ha π hπ
  rw [Int.toNat_of_nonneg h0]
  have e := proveTrusted_eq (fixedHash k) h n r len zk hn hgcd hr hlen hzk (a 0) (mem_box.1 ha 0)
  rw [e] at hπ
  simp only [Res.bind_eq_ok, Res.pure_eq, Res.ok.injEq] at hπ
  obtain ⟨c', hc', rfl⟩ := hπ
  show trustedChallenge (fixedHash k) (h ^ r.toNat % n) h n (h ^ a 0 % n) len = .ok c
  rw [hc', trustedChallenge_fixed hlen.le hc' hc]

example : Ctx.randomOracleSha512 (fixedHash (List.replicate 64 165)) [] (2 ^ 10) = .ok 301 := by
  decide +kernel

/-- The hypothesis of `C90_parameters` is met, for all parameters. -/
theorem parameters_met (k : Bytes) (h n r zk : Int) (hgcd : Int.gcd h n = 1)
    (hzk : 0 < zk) (reps : Nat) (hr0 : 0 < reps)
    (hr1 : reps ≤ 129000) :
    ∃ cs : List Bool, cs.length = reps ∧
      (∃ c, Ctx.randomOracleSha512 (fixedHash k) [] (2 ^ reps) = .ok c ∧ bitsLoop reps c = .ok cs) ∧
      ∀ draws π, prove (fixedHash k) (h ^ r.toNat % n) h n r reps zk draws = .ok π →
      genProofChallenge (fixedHash k) (h ^ r.toNat % n) h n π.dummyGs reps = .ok cs := by
  obtain ⟨c, hc, h0, -⟩ := oracle_ok (fixedHash k) [] (len := reps) hr1
  obtain ⟨cs, hcs, hl⟩ := bitsLoop_ok reps c
  refine ⟨cs, hl, ⟨c, hc, hcs⟩, ?_⟩
  intro draws π hπ
  have hv := C51_complete _ _ _ _ _ _ _ _ _ hπ
  have hreps : π.reps = reps := by
    unfold prove at hπ
    rw [if_neg (by omega), if_neg (by omega), if_neg (by simp [BN.gcd, hgcd])] at hπ
    simp only [Res.bind_eq_ok] at hπ
    obtain ⟨_, _, hπ⟩ := hπ
    split at hπ
    · cases hπ
    · simp only [Res.bind_eq_ok, Res.pure_eq, Res.ok.injEq] at hπ
      obtain ⟨_, _, _, _, rfl⟩ := hπ
      rfl
  unfold verifyProof at hv
  rw [hreps] at hv
  split at hv
  · cases hv
  split at hv
  · cases hv
  split at hv
  · cases hv
  split at hv
  · cases hv
  simp only [Res.bind_eq_ok] at hv
  obtain ⟨cs', hcs', -⟩ := hv
  rw [hcs']
  unfold genProofChallenge at hcs'
  simp only [Res.bind_eq_ok] at hcs'
  obtain ⟨b, _, m, hm, c', hc', hcs'⟩ := hcs'
  unfold BN.lshift at hm
  rw [if_neg (by omega), one_mul, Int.toNat_natCast] at hm
  cases hm
  rw [oracle_fixed k b [], hc] at hc'
  cases hc'
  rw [Int.toNat_natCast, hcs] at hcs'
  cases hcs'
  rfl

example : bitsLoop 10 301 = .ok [true, false, true, true, false, true, false, false, true, false] := by
  decide +kernel

end PJC.Ped
