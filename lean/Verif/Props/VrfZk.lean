import Verif.Props.ZeroKnowledge
import Verif.Props.DyVrf
set_option linter.unusedSectionVars false
/-
C91: the proofs of the verifiable random function are honest-verifier statistical zero-knowledge.

As in C90, the challenge is fixed, the hash function is any that leads to it, the draws of the masks
range over all their values, and the proofs are compared with those of a simulator that knows
neither the key nor the messages nor any opening.
-/
namespace PJC.Vrf
open PJC.Ped PJC.Props PJC.Stat
variable {G : Type} [AddCommGroup G] [DecidableEq G]
variable {gs : List Int} {h n : Int} {v : DyVrf G}

/-- The bounds of the masks for the key and for the opening. -/
def keyBounds (v : DyVrf G) (n : Int) : Fin 2 → Nat :=
  ![v.group.order * 2 ^ (v.params.chal + v.params.sec).toNat,
    n.toNat * 2 ^ (v.params.chal + v.params.sec).toNat]

/-- Specification: a simulated key proof, from the challenge and two responses. -/
def simKey (c z1 z2 : Nat) : VrfKeyProof :=
  ⟨BN.natToBytes c, BN.natToBytes z1, BN.natToBytes z2⟩

theorem toBytes_nat (k : Nat) : BN.toBytes (k : Int) = .ok (BN.natToBytes k) := by
  rw [BN.toBytes_of_nonneg (by omega), Int.toNat_natCast]

theorem keyChallenge_range (M : Made gs h n v) {H : Hashes} {pk d : Bytes} {c : Int}
    (hc : keyChallenge H v pk d = .ok c) : 0 ≤ c ∧ c < 2 ^ v.params.chal.toNat := by
  unfold keyChallenge at hc
  rw [M.chalBound, Res.ok_bind] at hc
  exact oracle_nonneg hc

/-- What `GenerateKeyPair` returns, in terms of the challenge. -/
theorem generateKeyPair_eq (M : Made gs h n v) (wk wo : Nat) :
    ∃ (k o : Nat) (pk : Bytes), k < v.group.order ∧ o < n.toNat ∧
      IsKeyPair gs h n v.group pk ⟨BN.natToBytes k, BN.natToBytes o⟩ ∧
      ∀ (H : Hashes) (a b : Nat), a < keyBounds v n 0 → b < keyBounds v n 1 →
        ∃ d : Bytes, generateKeyPair H v ⟨wk, wo, a, b⟩ = (do
          let c ← keyChallenge H v pk d
          let cb ← BN.toBytes c
          let x ← BN.toBytes ((a : Int) + k * c)
          let y ← BN.toBytes ((b : Int) + o * c)
          return (pk, ⟨BN.natToBytes k, BN.natToBytes o⟩, ⟨cb, x, y⟩)) := by
  have hn := M.n1
  have hn0 : 0 < n := by omega
  have Gd := M.good
  obtain ⟨k, hk, hk1, hk2⟩ := M.lawful.generatePrivateKey_spec wk
  obtain ⟨o, ho, ho1, ho2⟩ := randLessThan_ok wo hn0
  obtain ⟨k, rfl⟩ := Int.eq_ofNat_of_zero_le (by omega : 0 ≤ k)
  obtain ⟨o, rfl⟩ := Int.eq_ofNat_of_zero_le ho1
  have vk : Valid gs (List.replicate gs.length (k : Int)) o :=
    Made.replicate_valid gs (by omega) ho1
  have hC0 : 0 ≤ commitment gs h n (List.replicate gs.length (k : Int)) o := commitment_nonneg hn0 _ _
  obtain ⟨pk, hpk, hpk'⟩ := toBytes_parse hC0
  refine ⟨k, o, pk, by omega, by omega, ?_, ?_⟩
  · refine ⟨?_, ?_, ?_, ?_, ?_⟩ <;> simp only [BN.ofBytes_natToBytes]
    · exact hk1
    · exact hk2
    · exact ho1
    · exact ho2
    · exact hpk'
  · intro H a b ha hb
    have ea : Ctx.randLessThan a ((v.group.order : Int) * 2 ^ (v.params.chal + v.params.sec).toNat)
        = .ok (a : Int) := by
      have := randLessThan_lt (w := a) (b := v.group.order * 2 ^ (v.params.chal + v.params.sec).toNat) ha
      push_cast at this
      exact this
    have eb : Ctx.randLessThan b (n * 2 ^ (v.params.chal + v.params.sec).toNat) = .ok (b : Int) := by
      rw [← cast_bound hn0]
      exact randLessThan_lt hb
    have vd : Valid gs (List.replicate gs.length (a : Int)) b :=
      Made.replicate_valid gs (by omega) (by omega)
    obtain ⟨d, hd, -⟩ := toBytes_parse
      (commitment_nonneg hn0 (List.replicate gs.length (a : Int)) b : 0 ≤ commitment gs h n _ _)
    refine ⟨d, ?_⟩
    unfold generateKeyPair
    simp only [hk, Res.ok_bind, Ped.commit, Gd.n_eq, ho, Gd.gs_eq, Gd.commit vk, Res.pure_eq, 
      hpk, toBytes_nat, M.shift v.group.order _ (.inl rfl), M.shift n _ (.inl rfl), ea, eb,
      Gd.commit vd, hd]

/-- **C91**, keys.  Fix the draws of the key and of its opening, and the challenge `c`; for each draw
of the two masks let the hash function be any that leads to that challenge.  With the masks uniform
below their bounds, `GenerateKeyPair` returns the key pair together with a proof that is distributed
like the simulator's up to a statistical distance of `2 / 2 ^ security`. -/
theorem C91_key (M : Made gs h n v) (wk wo c : Nat) (H : (Fin 2 → Nat) → Hashes)
    (hc : ∀ a ∈ Box (keyBounds v n), ∀ pk sk π,
      generateKeyPair (H a) v ⟨wk, wo, a 0, a 1⟩ = .ok (pk, sk, π) → BN.ofBytes π.challenge = c) :
    ∃ pk sk, IsKeyPair gs h n v.group pk sk ∧
      StatClose (Box (keyBounds v n)) (fun a => generateKeyPair (H a) v ⟨wk, wo, a 0, a 1⟩)
        (fun a => .ok (pk, sk, simKey c (a 0) (a 1))) 2 (2 ^ v.params.sec.toNat) := by
  obtain ⟨k, o, pk, hk, ho, hkp, hgen⟩ := generateKeyPair_eq M wk wo
  refine ⟨pk, _, hkp, ?_⟩
  have hq := M.lawful.prime.pos
  obtain ⟨hsec, hchal, -⟩ := M.pos
  have hn : 0 < n.toNat := by have := M.n1; omega
  have run : ∀ a ∈ Box (keyBounds v n), c < 2 ^ v.params.chal.toNat ∧
      generateKeyPair (H a) v ⟨wk, wo, a 0, a 1⟩ =
        .ok (pk, ⟨BN.natToBytes k, BN.natToBytes o⟩, simKey c (a 0 + k * c) (a 1 + o * c)) := by
    intro a ha
    obtain ⟨d, hd⟩ := hgen (H a) (a 0) (a 1) (mem_box.1 ha 0) (mem_box.1 ha 1)
    obtain ⟨c', hc', h0, h1⟩ := M.keyChallenge_ok (H a) pk d
    obtain ⟨c', rfl⟩ := Int.eq_ofNat_of_zero_le h0
    have e1 : (a 0 : Int) + k * c' = ((a 0 + k * c' : Nat) : Int) := by push_cast; rfl
    have e2 : (a 1 : Int) + o * c' = ((a 1 + o * c' : Nat) : Int) := by push_cast; rfl
    rw [hc', Res.ok_bind, e1, e2] at hd
    simp only [toBytes_nat, Res.ok_bind, Res.pure_eq] at hd
    have := hc a ha _ _ _ hd
    simp only [BN.ofBytes_natToBytes, Int.natCast_inj] at this
    subst this
    exact ⟨by exact_mod_cast h1, hd⟩
  have hpos : ∀ i, 0 < keyBounds v n i := by
    intro i
    fin_cases i <;> simp only [keyBounds] <;> (simp; omega)
  have hcl := (run (fun _ => 0) (mem_box.2 hpos)).1
  have et : (v.params.chal + v.params.sec).toNat = v.params.chal.toNat + v.params.sec.toNat := by omega
  have mask : ∀ x y : Nat, x < y →
      x * c * 2 ^ v.params.sec.toNat ≤ 1 * (y * 2 ^ (v.params.chal + v.params.sec).toNat) := by
    intro x y hxy
    rw [one_mul, et, pow_add, ← mul_assoc]
    exact Nat.mul_le_mul_right _ (Nat.mul_le_mul hxy.le hcl.le)
  have key := close_of_shift (keyBounds v n) ![k * c, o * c] (fun _ => 1) (2 ^ v.params.sec.toNat) hpos
    (by
      intro i
      fin_cases i
      · exact mask k _ hk
      · exact mask o _ ho)
    (fun a => generateKeyPair (H a) v ⟨wk, wo, a 0, a 1⟩)
    (fun a => .ok (pk, ⟨BN.natToBytes k, BN.natToBytes o⟩, simKey c (a 0) (a 1))) (by
      intro a ha _
      exact (run a ha).2)
  simpa using key

/-- **C91**: a simulated key proof is accepted when the hash function answers the challenge it was
made for; `d` is the first message that `VerifyGenerateKeysProof` recomputes. -/
theorem C91_key_accepted (M : Made gs h n v) (pk : Bytes) (hpk : Int.gcd (BN.ofBytes pk) n = 1)
    (c z1 z2 : Nat) (hz : z1 < keyBounds v n 0) :
    ∃ d : Bytes, ∀ H, keyChallenge H v pk d = .ok (c : Int) →
      verifyKeyProof H v pk (simKey c z1 z2) = .ok () := by
  have hn := M.n1
  have hn0 : 0 < n := by omega
  have Gd := M.good
  obtain ⟨hsec, hchal, -⟩ := M.pos
  have vm : Valid gs (List.replicate gs.length (z1 : Int)) (z2 : Int) :=
    Made.replicate_valid gs (by omega) (by omega)
  obtain ⟨i, hi, hi0, -⟩ := recover hn0 hpk c
  have hdummy : keyDummyCommit v pk (simKey c z1 z2) =
      .ok (i * commitment gs h n (List.replicate gs.length (z1 : Int)) z2 % n) := by
    unfold keyDummyCommit simKey
    simp only [BN.ofBytes_natToBytes, Gd.gs_eq, Gd.commit vm, Res.ok_bind, Ped.multiply, Ped.add,
      Gd.n_eq, modExp_ok (by omega : (0 : Int) ≤ (c : Int)) hn0.ne', modMul_ok hn0.ne',
      Int.toNat_natCast, hi]
  obtain ⟨d, hd, -⟩ := toBytes_parse (Int.emod_nonneg (i * commitment gs h n
    (List.replicate gs.length (z1 : Int)) z2) hn0.ne')
  refine ⟨d, ?_⟩
  intro H hc
  unfold verifyKeyProof
  rw [M.shift _ _ (.inr (.inr rfl)), Res.ok_bind, if_neg, hdummy, Res.ok_bind, hd, Res.ok_bind, hc,
    Res.ok_bind, if_neg]
  · simp [simKey, BN.ofBytes_natToBytes]
  · simp only [simKey, BN.ofBytes_natToBytes, not_lt, gt_iff_lt]
    have e : (v.params.chal + v.params.sec + 1).toNat = (v.params.chal + v.params.sec).toNat + 1 := by
      omega
    have hz' : z1 < v.group.order * 2 ^ (v.params.chal + v.params.sec).toNat := hz
    rw [e, pow_succ]
    have : (z1 : Int) < v.group.order * 2 ^ (v.params.chal + v.params.sec).toNat := by exact_mod_cast hz'
    have hp : (0 : Int) ≤ v.group.order * 2 ^ (v.params.chal + v.params.sec).toNat := by positivity
    rw [← mul_assoc]
    omega

/-! ### Evaluation proofs -/

/-- The draws of an evaluation proof for `L` messages: `none` is the mask of the key, `some none`
that of the opening, `some (some i)` that of message `i`. -/
abbrev Mask (L : Nat) := Option (Option (Fin L))

/-- The bounds of the masks. -/
def applyBounds (v : DyVrf G) (n : Int) (L : Nat) : Mask L → Nat
  | none => v.group.order * 2 ^ (v.params.sec + v.params.chal).toNat
  | some none => n.toNat * 2 ^ (v.params.sec + v.params.chal).toNat
  | some (some _) => v.group.order * 2 ^ (v.params.sec + v.params.chal).toNat

/-- The draws as the argument of the model. -/
def drawsOf {L : Nat} (a : Mask L → Nat) : ApplyDraws :=
  ⟨a none, fun i => if h : i < L then a (some (some ⟨i, h⟩)) else 0, a (some none)⟩

/-- Specification: the responses a simulator chooses. -/
def simZ {L : Nat} (a : Mask L → Nat) (i : Nat) : Int :=
  if h : i < L then (a (some (some ⟨i, h⟩)) : Int) + a none else a none

/-- Specification: a simulated evaluation proof.  It is made from the statement (the evaluations
`es`, and the inverse `inv` of the product of the commitments to the messages and to the key), the
challenge `c` and the chosen responses: the first message is what the verification equations
demand. -/
def simApply (E : EcGroup G) (base : G) (gs : List Int) (h n : Int) (es : List G) (inv : Int)
    {L : Nat} (c : Nat) (a : Mask L → Nat) : Res VrfApplyProof := do
  let zs := (List.range gs.length).map (simZ a)
  let d ← BN.toBytes (commitment gs h n zs (a (some none)) * inv ^ c % n)
  let ps ← ecPointVectorToProto E
    ((List.range L).map fun i => simZ a i • es.getD i 0 - (c : Int) • base)
  let z ← bigNumVectorToProto zs
  let o ← BN.toBytes (a (some none))
  return ⟨d, ps, z, o⟩

/-- What `GenerateApplyProof` returns, in terms of the challenge. -/
theorem generateApplyProof_eq (M : Made gs h n v) (H : Hashes) (pk : Bytes) (sk : VrfPrivateKey)
    (ms : List Int) (hlen : ms.length ≤ gs.length) (es : List G) (hes : es.length = ms.length)
    (cm r : Int) (a : Mask ms.length → Nat) (ha : a ∈ Box (applyBounds v n ms.length)) :
    generateApplyProof H v ms es pk sk cm r (drawsOf a) = (do
      let d ← BN.toBytes (commitment gs h n ((List.range gs.length).map (simZ a)) (a (some none)))
      let ps ← ecPointVectorToProto v.group
        ((List.range ms.length).map fun i => simZ a i • es.getD i 0)
      let c ← applyChallenge H v es pk cm d ps
      let z ← bigNumVectorToProto ((List.range gs.length).map fun i =>
        simZ a i + if i < ms.length then (ms.getD i 0 + BN.ofBytes sk.key) * c
          else BN.ofBytes sk.key * c)
      let o ← BN.toBytes ((a (some none) : Int) + (BN.ofBytes sk.opening + r) * c)
      return ⟨d, ps, z, o⟩) := by
  have hn0 : 0 < n := by have := M.n1; omega
  have Gd := M.good
  rw [mem_box] at ha
  have hdk : Ctx.randLessThan (a none) ((v.group.order : Int) *
      2 ^ (v.params.sec + v.params.chal).toNat) = .ok (a none : Int) := by
    have := randLessThan_lt (ha none)
    simp only [applyBounds] at this
    push_cast at this
    exact this
  have hdo : Ctx.randLessThan (a (some none)) (n * 2 ^ (v.params.sec + v.params.chal).toNat)
      = .ok (a (some none) : Int) := by
    rw [← cast_bound hn0]
    exact randLessThan_lt (ha (some none))
  have hdumM : (List.range gs.length).mapM (dummyAt ((v.group.order : Int) *
      2 ^ (v.params.sec + v.params.chal).toNat) (a none) ms.length (drawsOf a).message)
      = .ok ((List.range gs.length).map (simZ a)) := by
    apply mapM_eq_map
    intro i _
    unfold dummyAt simZ drawsOf
    by_cases hi : i < ms.length
    · have := randLessThan_lt (ha (some (some ⟨i, hi⟩)))
      simp only [applyBounds] at this
      push_cast at this
      simp only [hi, if_true, dif_pos, this, Res.ok_bind, Res.pure_eq]
    · simp only [hi, if_false, dif_neg, not_false_eq_true]
  have vd : Valid gs ((List.range gs.length).map (simZ a)) (a (some none)) := by
    refine ⟨by simp, ?_, by omega⟩
    intro m hm
    obtain ⟨i, _, rfl⟩ := List.mem_map.1 hm
    unfold simZ
    split <;> omega
  have hptsM : (List.range ms.length).mapM (dummyG es ((List.range gs.length).map (simZ a)))
      = .ok ((List.range ms.length).map fun i => simZ a i • es.getD i 0) := by
    apply mapM_eq_map
    intro i hi
    have hi : i < ms.length := List.mem_range.1 hi
    have h1 : es[i]? = some (es.getD i 0) := by
      simp [List.getD_eq_getElem?_getD, (by omega : i < es.length)]
    have h2 : ((List.range gs.length).map (simZ a))[i]? = some (simZ a i) := by
      simp [(by omega : i < gs.length)]
    simp only [dummyG, h1, h2]
  have hmsg1 : applyProofMessage1 v ms es (drawsOf a) =
      .ok (commitment gs h n ((List.range gs.length).map (simZ a)) (a (some none)),
        (List.range ms.length).map (fun i => simZ a i • es.getD i 0),
        (List.range gs.length).map (simZ a), (a none : Int), (a (some none) : Int)) := by
    unfold applyProofMessage1
    have e1 : (drawsOf a).key = a none := rfl
    have e2 : (drawsOf a).opening = a (some none) := rfl
    simp only [M.shift _ _ (.inr (.inl rfl)), Res.ok_bind, Gd.n_eq, Gd.gs_eq, e1, e2, 
      hdk, hdumM, hdo, Gd.commit vd, hptsM, Res.pure_eq]
  have hz : ∀ c : Int, (List.range gs.length).mapM
      (maskedAt ms ((List.range gs.length).map (simZ a)) (BN.ofBytes sk.key) (a none) c) =
      .ok ((List.range gs.length).map fun i =>
        simZ a i + if i < ms.length then (ms.getD i 0 + BN.ofBytes sk.key) * c
          else BN.ofBytes sk.key * c) := by
    intro c
    apply mapM_eq_map
    intro i hi
    have hi : i < gs.length := List.mem_range.1 hi
    unfold maskedAt
    by_cases hiL : i < ms.length
    · have h1 : ms[i]? = some (ms.getD i 0) := getElem?_getD 0 hiL
      have h2 : ((List.range gs.length).map (simZ a))[i]? = some (simZ a i) := by simp [hi]
      simp only [h1, h2, hiL, if_true]
    · have h1 : ms[i]? = none := by simp; omega
      simp only [h1, simZ, hiL, if_false, dif_neg, not_false_eq_true]
  unfold generateApplyProof
  simp only [hmsg1, Res.ok_bind, Gd.gs_eq, hz]

/-- **C91**, evaluations.  Take a key pair, messages, their evaluations and a commitment to them, as
in C58, and fix the challenge `c`; for each draw of the masks let the hash function be any that leads
to that challenge.  With the masks uniform below their bounds, what `GenerateApplyProof` returns is
distributed like what the simulator returns, up to a statistical distance of
`(number of messages + 3) / 2 ^ security`. -/
theorem C91_apply (M : Made gs h n v) (pk : Bytes) (sk : VrfPrivateKey)
    (hkey : IsKeyPair gs h n v.group pk sk) (ms : List Int) (hlen : ms.length ≤ gs.length)
    (hms : ∀ m ∈ ms, 0 ≤ m ∧ m < v.group.order) (es : List G)
    (hes : List.Forall₂ (IsEval v.group v.base (BN.ofBytes sk.key)) ms es) (r : Int) (hr : 0 ≤ r)
    (hrn : r < n) (inv : Int)
    (hinv : commitment gs h n ms r * BN.ofBytes pk * inv % n = 1 % n)
    (c : Nat) (hcb : c < 2 ^ v.params.chal.toNat) (H : (Mask ms.length → Nat) → Hashes)
    (hc : ∀ a ∈ Box (applyBounds v n ms.length), ∀ π,
      generateApplyProof (H a) v ms es pk sk (commitment gs h n ms r) r (drawsOf a) = .ok π →
      applyChallenge (H a) v es pk (commitment gs h n ms r) π.commitDummy π.dummyGs = .ok (c : Int)) :
    StatClose (Box (applyBounds v n ms.length))
      (fun a => generateApplyProof (H a) v ms es pk sk (commitment gs h n ms r) r (drawsOf a))
      (fun a => simApply v.group v.base gs h n es inv c a) (ms.length + 3) (2 ^ v.params.sec.toNat) := by
  have hn0 : 0 < n := by have := M.n1; omega
  have hq := M.lawful.prime.pos
  obtain ⟨hsec, hchal, hbase⟩ := M.pos
  have hlenes : ms.length = es.length := hes.length_eq
  have hes0 : ∀ e ∈ es, e ≠ 0 := by
    intro e he
    obtain ⟨i, hi, rfl⟩ := List.mem_iff_getElem.1 he
    exact (hes.get (by omega) hi).ne M.lawful hbase
  have hcm0 : 0 ≤ commitment gs h n ms r := commitment_nonneg hn0 _ _
  obtain ⟨k, hk⟩ := Int.eq_ofNat_of_zero_le (by have := hkey.key_pos; omega : 0 ≤ BN.ofBytes sk.key)
  obtain ⟨o, ho⟩ := Int.eq_ofNat_of_zero_le hkey.opening_nonneg
  have hkq : k < v.group.order := by have := hkey.key_lt; omega
  have hon : o < n.toNat := by have := hkey.opening_lt; omega
  obtain ⟨r, rfl⟩ := Int.eq_ofNat_of_zero_le hr
  have hmget : ∀ i, 0 ≤ ms.getD i 0 ∧ ms.getD i 0 < v.group.order := by
    intro i
    by_cases hi : i < ms.length
    · exact hms (ms.getD i 0) (by simp [List.getD_eq_getElem?_getD, hi])
    · rw [List.getD_eq_getElem?_getD, List.getElem?_eq_none (by omega)]
      simp; omega
  have hpos : ∀ i, 0 < applyBounds v n ms.length i := by
    have : 0 < n.toNat := by omega
    intro i
    rcases i with _ | _ | i <;> simp only [applyBounds] <;> positivity
  have et : (v.params.sec + v.params.chal).toNat = v.params.chal.toNat + v.params.sec.toNat := by omega
  have mask : ∀ x y j : Nat, x ≤ j * y →
      x * c * 2 ^ v.params.sec.toNat ≤ j * (y * 2 ^ (v.params.sec + v.params.chal).toNat) := by
    intro x y j hxy
    rw [et, pow_add, ← mul_assoc, ← mul_assoc]
    exact Nat.mul_le_mul_right _ (Nat.mul_le_mul hxy hcb.le)
  let s : Mask ms.length → Nat
    | none => k * c
    | some none => (o + r) * c
    | some (some i) => (ms.getD i 0).toNat * c
  let w : Mask ms.length → Nat
    | none => 1
    | some none => 2
    | some (some _) => 1
  have key := close_of_shift (applyBounds v n ms.length) s w (2 ^ v.params.sec.toNat) hpos
    (by
      intro i
      rcases i with _ | _ | i
      · exact mask k _ 1 (by omega)
      · exact mask (o + r) _ 2 (by omega)
      · exact mask (ms.getD i 0).toNat _ 1 (by have := hmget i; omega))
    (fun a => generateApplyProof (H a) v ms es pk sk (commitment gs h n ms r) r (drawsOf a))
    (fun a => simApply v.group v.base gs h n es inv c a) (by
      intro a ha _
      have hreal := generateApplyProof_eq M (H a) pk sk ms hlen es hlenes.symm
        (commitment gs h n ms r) r a ha
      have hca := hc a ha
      rw [hreal] at hca ⊢
      -- the responses
      have hzs : ∀ i, simZ (fun i => a i + s i) i =
          simZ a i + if i < ms.length then (ms.getD i 0 + BN.ofBytes sk.key) * c
            else BN.ofBytes sk.key * c := by
        intro i
        unfold simZ
        rw [hk]
        by_cases hi : i < ms.length
        · simp only [hi, dif_pos, if_true, s]
          push_cast
          rw [Int.toNat_of_nonneg (hmget i).1]
          ring
        · simp only [hi, dif_neg, if_false, s, not_false_eq_true]
          push_cast
          ring
      have hzs' : (List.range gs.length).map (simZ (fun i => a i + s i)) =
          (List.range gs.length).map fun i =>
            simZ a i + if i < ms.length then (ms.getD i 0 + BN.ofBytes sk.key) * c
              else BN.ofBytes sk.key * c :=
        List.map_congr_left fun i _ => hzs i
      -- the points
      have hpts : ((List.range ms.length).map fun i =>
          simZ (fun i => a i + s i) i • es.getD i 0 - (c : Int) • v.base) =
          (List.range ms.length).map fun i => simZ a i • es.getD i 0 := by
        apply List.map_congr_left
        intro i hi
        have hi : i < ms.length := List.mem_range.1 hi
        have e3 : (ms.getD i 0 + BN.ofBytes sk.key) • es.getD i 0 = v.base := by
          have := (hes.get (i := i) hi (by omega)).smul M.lawful
          rw [List.get_eq_getElem, List.get_eq_getElem, getElem_getD 0, getElem_getD 0] at this
          exact this
        rw [hzs i, if_pos hi, add_zsmul, mul_comm, mul_zsmul, e3]
        abel
      -- the commitment
      have hvals : ∀ i, 0 ≤ simZ a i := by
        intro i
        unfold simZ
        split <;> omega
      have vd : Valid gs ((List.range gs.length).map (simZ a)) (a (some none)) := by
        refine ⟨by simp, ?_, by omega⟩
        intro m hm
        obtain ⟨i, _, rfl⟩ := List.mem_map.1 hm
        exact hvals i
      have hD : commitment gs h n ((List.range gs.length).map (simZ (fun i => a i + s i)))
          ((a (some none) + s (some none) : Nat) : Int) * inv ^ c % n =
          commitment gs h n ((List.range gs.length).map (simZ a)) (a (some none)) := by
        have hmsV : Valid gs ms r := ⟨hlen, fun m hm => (hms m hm).1, hr⟩
        have hkV : Valid gs (List.replicate gs.length (k : Int)) (o : Int) :=
          Made.replicate_valid gs (by omega) (by omega)
        have hlin := commitment_linear (h := h) (n := n) (by omega : (0 : Int) ≤ (c : Int)) vd
          (hmsV.add hkV)
        have e : addVec ((List.range gs.length).map (simZ a))
            ((addVec ms (List.replicate gs.length (k : Int))).map ((c : Int) * ·)) =
            (List.range gs.length).map (simZ (fun i => a i + s i)) := by
          rw [hzs']
          apply ext_getD
          · simp [addVec_length]; omega
          · intro i hi
            have hi : i < gs.length := by
              simp [addVec_length] at hi; omega
            rw [addVec_getD, getD_map_mul, addVec_getD, getD_replicate hi]
            simp only [List.getD_eq_getElem?_getD, List.getElem?_map, List.getElem?_range hi,
              Option.map_some, Option.getD_some, hk]
            by_cases hiL : i < ms.length
            · rw [if_pos hiL]; ring
            · rw [if_neg hiL, List.getElem?_eq_none (by omega)]
              simp; ring
        rw [e] at hlin
        have e2 : ((a (some none) + s (some none) : Nat) : Int) = (a (some none) : Int) + c * (r + o) := by
          simp only [s]; push_cast; ring
        rw [e2]
        have hpk := hkey.commits
        rw [hk, ho] at hpk
        have hadd := commitment_add (h := h) (n := n) hmsV hkV
        rw [← hpk] at hadd
        rw [← commitment_emod (gs := gs) (h := h) (n := n) ((List.range gs.length).map (simZ a))]
        rw [Int.toNat_natCast] at hlin
        have hone : (commitment gs h n ms r * BN.ofBytes pk * inv) ^ c ≡ 1 ^ c [ZMOD n] :=
          Int.ModEq.pow c hinv
        rw [one_pow, mul_pow] at hone
        have step : (commitment gs h n (addVec ms (List.replicate gs.length (k : Int))) (r + o)) ^ c ≡
            (commitment gs h n ms r * BN.ofBytes pk) ^ c [ZMOD n] := by
          apply Int.ModEq.pow
          rw [hadd]
          exact Int.mod_modEq _ _
        have fin := ((hlin.trans (step.mul_left _)).mul_right (inv ^ c))
        rw [mul_assoc] at fin
        have := fin.trans (hone.mul_left _)
        rw [mul_one] at this
        exact this
      unfold simApply
      dsimp only
      rw [hD, hpts, hzs']
      obtain ⟨d, hd, -⟩ := toBytes_parse (commitment_nonneg hn0
        ((List.range gs.length).map (simZ a)) (a (some none)) : 0 ≤ commitment gs h n _ _)
      rw [hd, Res.ok_bind] at hca ⊢
      rw [Res.ok_bind]
      rcases ecPoints_cases M.lawful
        ((List.range ms.length).map fun i => simZ a i • es.getD i 0) with ⟨bp, hbp⟩ | ⟨-, hbp⟩
      swap
      · rw [hbp, Res.err_bind, Res.err_bind]
      rw [hbp, Res.ok_bind] at hca ⊢
      rw [Res.ok_bind]
      obtain ⟨c', hc', h0, -⟩ := M.applyChallenge_ok (H a) pk hcm0 hes0 d bp
      rw [hc', Res.ok_bind] at hca ⊢
      have hzpos : ∀ z ∈ ((List.range gs.length).map fun i =>
          simZ a i + if i < ms.length then (ms.getD i 0 + BN.ofBytes sk.key) * c'
            else BN.ofBytes sk.key * c'), 0 ≤ z := by
        intro z hz
        obtain ⟨i, _, rfl⟩ := List.mem_map.1 hz
        have h1 := hvals i
        have h2 := hmget i
        have h3 : 0 ≤ (ms.getD i 0 + BN.ofBytes sk.key) * c' := mul_nonneg (by omega) h0
        have h4 : 0 ≤ BN.ofBytes sk.key * c' := mul_nonneg (by omega) h0
        split <;> omega
      obtain ⟨bz, hbz, -⟩ := mapM_toBytes_round hzpos
      have hop : 0 ≤ (a (some none) : Int) + (BN.ofBytes sk.opening + r) * c' := by
        have := mul_nonneg (by omega : 0 ≤ BN.ofBytes sk.opening + r) h0
        omega
      obtain ⟨bo, hbo, -⟩ := toBytes_parse hop
      have hcc : c' = c := by
        have := hca ⟨d, bp, bz, bo⟩ (by
          rw [hbz, Res.ok_bind, hbo, Res.ok_bind]; rfl)
        dsimp only at this
        rw [hc'] at this
        cases this
        rfl
      subst hcc
      have e2 : ((a (some none) + s (some none) : Nat) : Int) =
          (a (some none) : Int) + (BN.ofBytes sk.opening + r) * c := by
        simp only [s, ho]; push_cast; ring
      rw [e2])
  have hsum : ∑ i, w i = ms.length + 3 := by
    rw [Fintype.sum_option, Fintype.sum_option]
    simp only [w, Finset.sum_const, Finset.card_univ, Fintype.card_fin, smul_eq_mul, mul_one]
    omega
  rw [hsum] at key
  exact key

/-- **C91**: a simulated evaluation proof is accepted when the hash function answers the challenge it
was made for. -/
theorem C91_apply_accepted (M : Made gs h n v) (H : Hashes) (pk : Bytes) (cm : Int) (es : List G)
    (hlen : es.length ≤ gs.length) (inv : Int) (hinv : cm * BN.ofBytes pk * inv % n = 1 % n) (c : Nat)
    (a : Mask es.length → Nat) (ha : a ∈ Box (applyBounds v n es.length)) (π : VrfApplyProof)
    (hπ : simApply v.group v.base gs h n es inv c a = .ok π)
    (hc : applyChallenge H v es pk cm π.commitDummy π.dummyGs = .ok (c : Int)) :
    verifyApplyProof H v es pk cm π = .ok () := by
  have hn0 : 0 < n := by have := M.n1; omega
  obtain ⟨hsec, hchal, hbase⟩ := M.pos
  have hz : ∀ i, 0 ≤ simZ a i ∧
      simZ a i ≤ 4 * (v.group.order * 2 ^ (v.params.sec + v.params.chal).toNat) := by
    intro i
    have h0 : a none < v.group.order * 2 ^ (v.params.sec + v.params.chal).toNat := mem_box.1 ha none
    have h0' : (a none : Int) < v.group.order * 2 ^ (v.params.sec + v.params.chal).toNat := by
      exact_mod_cast h0
    unfold simZ
    split
    · rename_i hi
      have h1 : a (some (some ⟨i, hi⟩)) < v.group.order * 2 ^ (v.params.sec + v.params.chal).toNat :=
        mem_box.1 ha _
      have h1' : (a (some (some ⟨i, hi⟩)) : Int) <
          v.group.order * 2 ^ (v.params.sec + v.params.chal).toNat := by exact_mod_cast h1
      constructor <;> omega
    · constructor <;> omega
  unfold simApply at hπ
  simp only [Res.bind_eq_ok, Res.pure_eq, Res.ok.injEq] at hπ
  obtain ⟨d, hd, ps, hps, z, hzz, o, ho, rfl⟩ := hπ
  obtain ⟨-, hd⟩ := toBytes_eq_ok hd
  obtain ⟨-, ho⟩ := toBytes_eq_ok ho
  have hps' := (ecPoints_ok M.lawful hps).2
  have hzpos : ∀ x ∈ (List.range gs.length).map (simZ a), 0 ≤ x := by
    intro x hx
    obtain ⟨i, _, rfl⟩ := List.mem_map.1 hx
    exact (hz i).1
  obtain ⟨bz, hbz, hbz'⟩ := mapM_toBytes_round hzpos
  rw [hbz] at hzz
  cases hzz
  rw [verifyApply_iff M]
  refine ⟨_, c, hps', hlen, by simp, ?_, hc, ?_, ?_, ?_⟩
  · rw [hbz']; simp
  · rw [hbz']
    intro x hx
    obtain ⟨i, _, rfl⟩ := List.mem_map.1 hx
    have := bitLength_le (hz i).1 (hz i).2 M.lawful.prime.pos
    omega
  · rw [hbz']
    intro i hi
    have e1 : ((List.range gs.length).map (simZ a)).getD i 0 = simZ a i := by
      simp [List.getD_eq_getElem?_getD, (by omega : i < gs.length)]
    have e2 : ((List.range es.length).map fun i =>
        simZ a i • es.getD i 0 - (c : Int) • v.base).getD i 0 =
        simZ a i • es.getD i 0 - (c : Int) • v.base := by
      rw [List.getD_eq_getElem?_getD, List.getElem?_map, List.getElem?_range hi]
      simp
    rw [e1, e2]
    abel
  · rw [hbz']
    dsimp only
    rw [ho, hd, Int.toNat_natCast]
    set C := commitment gs h n ((List.range gs.length).map (simZ a)) (a (some none) : Int) with hC
    have hone : (cm * BN.ofBytes pk * inv) ^ c ≡ 1 ^ c [ZMOD n] := Int.ModEq.pow c hinv
    rw [one_pow, mul_pow] at hone
    have h1 : C * inv ^ c % n * ((cm * BN.ofBytes pk % n) ^ c % n) ≡
        C * inv ^ c * (cm * BN.ofBytes pk) ^ c [ZMOD n] := by
      apply Int.ModEq.mul (Int.mod_modEq _ _)
      exact (Int.mod_modEq _ _).trans ((Int.mod_modEq _ _).pow c)
    have h2 : C * inv ^ c * (cm * BN.ofBytes pk) ^ c =
        C * ((cm * BN.ofBytes pk) ^ c * inv ^ c) := by ring
    rw [h2] at h1
    have h3 := h1.trans (hone.mul_left C)
    rw [mul_one] at h3
    have h4 : C % n = C := commitment_emod _ _
    exact h4.symm.trans h3.symm

/-! The hypotheses on the hash function are met by one that ignores its input (the other hypotheses
are those of C57 and C58, met by the toy instance there). -/

theorem key_met (M : Made gs h n v) (k : Bytes) (wk wo : Nat) : ∃ c : Nat,
    Ctx.randomOracleSha512 (fixedHash k) [] (2 ^ v.params.chal.toNat) = .ok (c : Int) ∧
    ∀ a b pk sk π, generateKeyPair (fixedHash k) v ⟨wk, wo, a, b⟩ = .ok (pk, sk, π) →
      BN.ofBytes π.challenge = c := by
  obtain ⟨hsec, hchal, -⟩ := M.pos
  have := M.chal
  obtain ⟨c, hc, h0, -⟩ := oracle_ok (fixedHash k) [] (len := v.params.chal.toNat) (by omega)
  obtain ⟨c, rfl⟩ := Int.eq_ofNat_of_zero_le h0
  refine ⟨c, hc, ?_⟩
  intro a b pk sk π hg
  unfold generateKeyPair at hg
  simp only [Res.bind_eq_ok, Res.pure_eq, Res.ok.injEq] at hg
  obtain ⟨_, _, _, _, _, _, _, _, _, _, _, _, _, _, _, _, _, _, _, _, _, _, c', hc', cb, hcb, _, _, _, _,
    hg⟩ := hg
  cases hg
  dsimp only
  rw [(toBytes_eq_ok hcb).2]
  unfold keyChallenge at hc'
  rw [M.chalBound, Res.ok_bind, oracle_fixed k _ [], hc] at hc'
  cases hc'
  rfl

theorem apply_met (M : Made gs h n v) (k : Bytes) (ms : List Int) (es : List G) (pk : Bytes)
    (sk : VrfPrivateKey) (cm r : Int) : ∃ c : Nat,
    Ctx.randomOracleSha512 (fixedHash k) [] (2 ^ v.params.chal.toNat) = .ok (c : Int) ∧
    c < 2 ^ v.params.chal.toNat ∧
    ∀ d π, generateApplyProof (fixedHash k) v ms es pk sk cm r d = .ok π →
      applyChallenge (fixedHash k) v es pk cm π.commitDummy π.dummyGs = .ok (c : Int) := by
  obtain ⟨hsec, hchal, -⟩ := M.pos
  have := M.chal
  obtain ⟨c, hc, h0, h1⟩ := oracle_ok (fixedHash k) [] (len := v.params.chal.toNat) (by omega)
  obtain ⟨c, rfl⟩ := Int.eq_ofNat_of_zero_le h0
  refine ⟨c, hc, by exact_mod_cast h1, ?_⟩
  intro d π hg
  unfold generateApplyProof at hg
  simp only [Res.bind_eq_ok, Res.pure_eq, Res.ok.injEq] at hg
  obtain ⟨_, _, cd, _, gb, _, c', hc', _, _, _, _, _, _, rfl⟩ := hg
  dsimp only
  rw [hc']
  unfold applyChallenge at hc'
  simp only [Res.bind_eq_ok, M.chalBound, Res.ok.injEq] at hc'
  obtain ⟨_, _, _, _, _, rfl, hc'⟩ := hc'
  rw [oracle_fixed k _ [], hc] at hc'
  cases hc'
  rfl

/-- The inverse the simulator needs exists. -/
theorem inv_met (M : Made gs h n v) (ms : List Int) (r : Int) (pk : Bytes) (sk : VrfPrivateKey)
    (hkey : IsKeyPair gs h n v.group pk sk) :
    ∃ inv : Int, commitment gs h n ms r * BN.ofBytes pk * inv % n = 1 % n := by
  have hn0 : 0 < n := by have := M.n1; omega
  have hu : Int.gcd (commitment gs h n ms r * BN.ofBytes pk) n = 1 := by
    rw [hkey.commits]
    exact gcd_mul_left' (commitment_unit M.gsU M.hU _ _) (commitment_unit M.gsU M.hU _ _)
  obtain ⟨i, hi, _, hrec⟩ := recover hn0 hu 1
  refine ⟨i, ?_⟩
  have := (hrec 1 (commitment gs h n ms r * BN.ofBytes pk) (by simp)).2
  exact this

end PJC.Vrf
