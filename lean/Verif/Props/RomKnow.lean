import Verif.Lemmas.Fork
import Verif.Lemmas.RandomOracle
import Verif.Props.RomSound
import Verif.Props.DyVrf
import Verif.Props.Transcript
set_option linter.unusedSectionVars false
/-
C124: from a prover whose proofs are accepted one gets, by running it a second time with other hash
values, what the proof claims that it knows.  SHA-512 is a random function.
-/
namespace PJC.RomKnow
open PJC.Oracle PJC.Prob PJC.Props PJC.RomSound

variable {G : Type} [AddCommGroup G] [DecidableEq G]

open scoped Classical in
/-- The forking lemma for a verification `V` that looks at the hash of one string only. -/
theorem fork_verify {A : Type} {c : Nat} (h2 : c ≤ 511) (V : (Bytes → Digest) → A → Prop)
    (target : A → Option Bytes)
    (hV : ∀ o a, V o a ↔ ∃ x, target a = some x ∧ V (fun _ => o x) a)
    (P : Prog Bytes Digest A) (Q : Nat) (D : Finset Bytes) (B : Bytes → Digest)
    (hQ : P.AsksAtMost Q) (hD : ∀ o x, target (P.run o) = some x → x ∈ D)
    (S : (D → Digest) → Prop) [DecidablePred S]
    (hS : ∀ f, S f ↔ V (graft B D f) (P.run (graft B D f)))
    (T : (D → Digest) × (D → Digest) → Prop) [DecidablePred T]
    (hT : ∀ f g x, target (P.run (graft B D f)) = some x →
      target (P.run (P.rewind (graft B D f) (graft B D g) x)) = some x →
      V (graft B D f) (P.run (graft B D f)) →
      V (P.rewind (graft B D f) (graft B D g) x)
        (P.run (P.rewind (graft B D f) (graft B D g) x)) →
      chalOf c (graft B D f x) ≠ chalOf c (P.rewind (graft B D f) (graft B D g) x x) → T (f, g))
    {a : ℚ} (ha : a = prob S) : a * (a / (Q + 1) - 1 / 2 ^ c) ≤ prob T := by
  have h := fork_bound (chalOf c) (δ := 1 / 2 ^ c)
    (fun k => prob_chal h2 _ fun d d' e e' => e.trans e'.symm) target
    (fun a y => V (fun _ => y) a) P Q D B hQ (a := a) ?_
  · refine h.trans (prob_mono ?_)
    rintro t ⟨x, hx, ⟨⟨e1, w1⟩, e2, w2⟩, hne⟩
    refine hT _ _ x e1 e2 ((hV _ _).2 ⟨x, e1, w1⟩) ((hV _ _).2 ⟨x, e2, w2⟩) ?_
    rw [Prog.rewind_self]
    exact hne
  · rw [ha]
    refine prob_congr fun f => ?_
    rw [hS, hV]
    constructor
    · rintro ⟨x, e, w⟩
      exact ⟨x, hD _ _ e, e, w⟩
    · rintro ⟨x, _, e, w⟩
      exact ⟨x, e, w⟩

/-- A prover that asks for the hash of `X` and takes the answer to its challenge from a table. -/
def fromTable {A : Type} (X : Bytes) (c : Nat) (table : Nat → A) : Prog Bytes Digest A :=
  .ask X fun y => .out (table (chalOf c y))

/-! ### Key proofs of the verifiable random function -/

section vrf
open PJC.Vrf PJC.Ped
variable {gs : List Int} {h n : Int} {v : DyVrf G}

/-- The string hashed for a public key and its proof. -/
def hashedKey (v : DyVrf G) (a : Bytes × VrfKeyProof) : Option Bytes :=
  match keyDummyCommit v a.1 a.2 with
  | .ok C => some (block (keyTranscript v.params a.1 (BN.natToBytes C.toNat)))
  | _ => none

theorem keyChallenge_eq (M : Made gs h n v) (hc : v.params.chal ≤ 511) (H : Hashes)
    (o : Bytes → Digest) (pk d : Bytes) : keyChallenge (withSha512 H o) v pk d =
      .ok ((chalOf v.params.chal.toNat (o (block (keyTranscript v.params pk d))) : Nat) : Int) := by
  have := M.pos
  unfold keyChallenge
  rw [lshift64_ok _ (by omega) (by omega), Res.ok_bind, one_mul,
    randomOracle_two (by omega) (by omega)]

theorem verifyKey_hash (M : Made gs h n v) (hc : v.params.chal ≤ 511) (H : Hashes)
    (o : Bytes → Digest) (a : Bytes × VrfKeyProof) :
    verifyKeyProof (withSha512 H o) v a.1 a.2 = .ok () ↔ ∃ x, hashedKey v a = some x ∧
      verifyKeyProof (withSha512 H fun _ => o x) v a.1 a.2 = .ok () := by
  unfold verifyKeyProof hashedKey
  simp only [M.shift _ _ (.inr (.inr rfl)), Res.ok_bind]
  by_cases hb : BN.ofBytes a.2.maskedKey >
      v.group.order * 2 ^ (v.params.chal + v.params.sec + 1).toNat
  · simp [hb]
  simp only [if_neg hb]
  cases hC : keyDummyCommit v a.1 a.2 with
  | err e => simp
  | crash => simp
  | ub => simp
  | ok C =>
    simp only [Res.ok_bind]
    rcases lt_or_ge C 0 with hn | hn
    · have : BN.toBytes C = .crash := by simp [BN.toBytes, hn]
      simp [this]
    · rw [BN.toBytes_of_nonneg hn]
      simp only [Res.ok_bind, keyChallenge_eq M hc, Option.some.injEq, exists_eq_left']

theorem verifyKey_challenge (M : Made gs h n v) (hc : v.params.chal ≤ 511) {H : Hashes}
    {o : Bytes → Digest} {a : Bytes × VrfKeyProof} {x : Bytes} (hx : hashedKey v a = some x)
    (hv : verifyKeyProof (withSha512 H o) v a.1 a.2 = .ok ()) :
    BN.ofBytes a.2.challenge = ((chalOf v.params.chal.toNat (o x) : Nat) : Int) ∧
    ∃ C, keyDummyCommit v a.1 a.2 = .ok C ∧ 0 ≤ C ∧
      x = block (keyTranscript v.params a.1 (BN.natToBytes C.toNat)) := by
  unfold verifyKeyProof at hv
  unfold hashedKey at hx
  rw [M.shift _ _ (.inr (.inr rfl)), Res.ok_bind] at hv
  split at hv
  · cases hv
  simp only [Res.bind_eq_ok] at hv
  obtain ⟨C, hC, b, hb, c, hc', hv⟩ := hv
  rw [hC] at hx
  simp only [Option.some.injEq] at hx
  obtain ⟨h0, -⟩ := toBytes_eq_ok hb
  rw [BN.toBytes_of_nonneg h0] at hb
  cases hb
  rw [keyChallenge_eq M hc, hx] at hc'
  cases hc'
  split at hv
  · cases hv
  · rename_i he
    push Not at he
    exact ⟨he.symm, C, hC, h0, hx.symm⟩

open scoped Classical in
/-- **C124**, key proofs.  A prover of any computing power asks for at most `Q` hashes and outputs a
public key with a proof; it is accepted with probability `a`.  Run it again with the same answers up
to the question its proof is made for and new answers from then on.  With probability at least
`a (a / (Q + 1) - 2^-chal)` both runs give accepted proofs for the same public key with different
challenges, and then the public key to the difference of the challenges is opened as a commitment to
one repeated value, the difference of the masked keys. -/
theorem C124_key (M : Made gs h n v) (hchal : v.params.chal ≤ 511)
    (hint : IsInt64 v.params.sec ∧ IsInt64 v.params.chal) (H : Hashes) (B : Bytes → Digest)
    (D : Finset Bytes) (hlen : ∀ x ∈ D, x.length ≤ 2 ^ 64) (Q : Nat)
    (prover : Prog Bytes Digest (Bytes × VrfKeyProof)) (hQ : prover.AsksAtMost Q)
    (hD : ∀ o x, hashedKey v (prover.run o) = some x → x ∈ D) (a : ℚ)
    (ha : a = prob (fun f : D → Digest => verifyKeyProof (withSha512 H (graft B D f)) v
      (prover.run (graft B D f)).1 (prover.run (graft B D f)).2 = .ok ())) :
    a * (a / (Q + 1) - 1 / 2 ^ v.params.chal.toNat) ≤
      prob (fun t : (D → Digest) × (D → Digest) => ∃ x pk π π',
        hashedKey v (prover.run (graft B D t.1)) = some x ∧
        prover.run (graft B D t.1) = (pk, π) ∧
        prover.run (prover.rewind (graft B D t.1) (graft B D t.2) x) = (pk, π') ∧
        BN.ofBytes π.challenge ≠ BN.ofBytes π'.challenge ∧
        (∀ ρ ∈ [π, π'], BN.ofBytes ρ.challenge < 2 ^ v.params.chal.toNat ∧
          BN.ofBytes ρ.maskedKey ≤ v.group.order * 2 ^ (v.params.chal + v.params.sec + 1).toNat) ∧
        commitment gs h n (List.replicate gs.length (BN.ofBytes π.maskedKey))
            (BN.ofBytes π.maskedOpening) * BN.ofBytes pk ^ (BN.ofBytes π'.challenge).toNat ≡
          commitment gs h n (List.replicate gs.length (BN.ofBytes π'.maskedKey))
            (BN.ofBytes π'.maskedOpening) * BN.ofBytes pk ^ (BN.ofBytes π.challenge).toNat
          [ZMOD n]) := by
  refine fork_verify (c := v.params.chal.toNat) (by omega)
    (fun o a => verifyKeyProof (withSha512 H o) v a.1 a.2 = .ok ()) (hashedKey v)
    (verifyKey_hash M hchal H) prover Q D B hQ hD _ ?_ _ ?_ ha
  · exact fun _ => Iff.rfl
  intro f g x e1 e2 v1 v2 hne
  have hx := hD _ _ e1
  obtain ⟨c1, C, hC, C0, t1⟩ := verifyKey_challenge M hchal e1 v1
  obtain ⟨c2, C', hC', C0', t2⟩ := verifyKey_challenge M hchal e2 v2
  have hl := hlen _ hx
  rcases hr : prover.run (graft B D f) with ⟨pk, π⟩
  rcases hr' : prover.run (prover.rewind (graft B D f) (graft B D g) x) with ⟨pk', π'⟩
  rw [hr] at e1 v1 c1 hC t1
  rw [hr'] at e2 v2 c2 hC' t2
  dsimp only at v1 v2 c1 c2 hC hC' t1 t2
  rw [t1] at t2 hl
  obtain ⟨-, rfl, hd⟩ := C71_key_transcript _ _ _ _ _ _ hint hint (Nat.lt_of_succ_le hl)
    (block_inj t2)
  have hCC : C = C' := by
    have := congrArg BN.ofBytes hd
    rw [BN.ofBytes_natToBytes, BN.ofBytes_natToBytes] at this
    omega
  subst hCC
  have s1 := C73_key_special_soundness M _ _ pk π π' v1 v2 (hC.trans hC'.symm)
  have s2 := C73_key_special_soundness M _ _ pk π' π v2 v1 (hC'.trans hC.symm)
  refine ⟨x, pk, π, π', e1, rfl, hr', ?_, ?_, s1.1⟩
  · rw [c1, c2]
    exact_mod_cast hne
  · intro ρ hρ
    simp only [List.mem_cons, List.not_mem_nil, or_false] at hρ
    rcases hρ with rfl | rfl
    · refine ⟨?_, s1.2⟩
      rw [c1]
      exact_mod_cast chalOf_lt _ _
    · refine ⟨?_, s2.2⟩
      rw [c2]
      exact_mod_cast chalOf_lt _ _

/-! In the toy instance (challenges of three bits) the holder of key 3 with opening 4 asks for one
hash and is always accepted, so that it is extracted with probability at least 1/2 - 1/8. -/

/-- The proof for the challenge `c`, made with the dummies 30 and 100. -/
def toyAnswer (c : Nat) : VrfKeyProof :=
  ⟨BN.natToBytes c, BN.natToBytes (30 + 3 * c), BN.natToBytes (100 + 4 * c)⟩

def toyAnswers : Res Bool := do
  let ped ← Ped.create [2, 3] 5 77 4
  return (List.range 8).all fun c => decide (keyDummyCommit
    (⟨toyParams, toyEc, 1, ped⟩ : DyVrf (ZMod 11)) [19] (toyAnswer c) = .ok 23)

open scoped Classical in
theorem C124_key_example : ∃ (v : DyVrf (ZMod 11)) (D : Finset Bytes)
    (prover : Prog Bytes Digest (Bytes × VrfKeyProof)),
    Made [2, 3] 5 77 v ∧ v.params.chal = 3 ∧ (IsInt64 v.params.sec ∧ IsInt64 v.params.chal) ∧
    (∀ x ∈ D, x.length ≤ 2 ^ 64) ∧ prover.AsksAtMost 1 ∧
    (∀ o x, hashedKey v (prover.run o) = some x → x ∈ D) ∧
    ∀ (H : Hashes) (B : Bytes → Digest), (1 : ℚ) = prob (fun f : D → Digest =>
      verifyKeyProof (withSha512 H (graft B D f)) v (prover.run (graft B D f)).1
        (prover.run (graft B D f)).2 = .ok ()) := by
  have h : toyAnswers = .ok true := by decide +kernel
  unfold toyAnswers at h
  simp only [Res.bind_eq_ok, Res.pure_eq, Res.ok.injEq, List.all_eq_true, List.mem_range,
    decide_eq_true_eq] at h
  obtain ⟨ped, hp, ht⟩ := h
  let v : DyVrf (ZMod 11) := ⟨toyParams, toyEc, 1, ped⟩
  have M : Made [2, 3] 5 77 v := ⟨toyEc_lawful, by decide, by decide, by decide,
    ⟨4, by decide, by decide, hp⟩, rfl, (by decide : toyParams.chal ≤ 129000),
    (by decide : toyParams.sec ≤ 2 ^ 30)⟩
  have hint : IsInt64 toyParams.sec ∧ IsInt64 toyParams.chal :=
    ⟨⟨by decide, by decide⟩, by decide, by decide⟩
  let X : Bytes := block (keyTranscript toyParams [19] (BN.natToBytes 23))
  have hX : ∀ y, hashedKey v ([19], toyAnswer (chalOf 3 y)) = some X := by
    intro y
    have := ht _ (chalOf_lt 3 y)
    unfold hashedKey
    simp only [v, this]
    rfl
  refine ⟨v, {X}, .ask X fun y => .out ([19], toyAnswer (chalOf 3 y)), M, rfl, hint, ?_,
    fun _ => trivial, ?_, ?_⟩
  · intro x hx
    rw [Finset.mem_singleton.1 hx]
    decide +kernel
  · intro o x hx
    simp only [Prog.run] at hx
    rw [hX] at hx
    cases hx
    exact Finset.mem_singleton_self _
  · intro H B
    symm
    refine prob_eq_one fun f => ?_
    simp only [Prog.run]
    set y := graft B {X} f X
    have h511 : v.params.chal ≤ 511 := (by decide : toyParams.chal ≤ 511)
    refine (verifyKey_hash M h511 H _ ([19], toyAnswer (chalOf 3 y))).2 ⟨X, hX y, ?_⟩
    change verifyKeyProof (withSha512 H fun _ => y) v [19] (toyAnswer (chalOf 3 y)) = .ok ()
    have hb : ¬ (BN.ofBytes (toyAnswer (chalOf 3 y)).maskedKey > v.group.order *
        2 ^ (v.params.chal + v.params.sec + 1).toNat) := by
      have := chalOf_lt 3 y
      have e : BN.ofBytes (toyAnswer (chalOf 3 y)).maskedKey = (30 + 3 * chalOf 3 y : Nat) :=
        BN.ofBytes_natToBytes _
      rw [e]
      have : (v.group.order : Int) * 2 ^ (v.params.chal + v.params.sec + 1).toNat = 11 * 2 ^ 6 := rfl
      rw [this]
      omega
    unfold verifyKeyProof
    rw [M.shift _ _ (.inr (.inr rfl)), Res.ok_bind, if_neg hb]
    have hk : keyDummyCommit v [19] (toyAnswer (chalOf 3 y)) = .ok 23 := ht _ (chalOf_lt 3 y)
    rw [hk, Res.ok_bind, BN.toBytes_of_nonneg (by decide : (0 : Int) ≤ 23), Res.ok_bind]
    have hc := keyChallenge_eq M h511 H (fun _ => y) [19] (BN.natToBytes (23 : Int).toNat)
    have e3 : v.params.chal.toNat = 3 := (by decide : toyParams.chal.toNat = 3)
    rw [e3] at hc
    have e : BN.ofBytes (toyAnswer (chalOf 3 y)).challenge = (chalOf 3 y : Nat) :=
      BN.ofBytes_natToBytes _
    rw [hc, Res.ok_bind, e, if_neg (not_not.2 rfl)]

/-! ### Evaluation proofs -/

/-- What a prover of evaluations outputs: the evaluations, the public key, the commitment to the
messages and the proof. -/
structure ApplyOut (G : Type) where
  evals : List G
  pk : Bytes
  cm : Int
  proof : VrfApplyProof

/-- The string hashed for evaluations and their proof. -/
def hashedApply (v : DyVrf G) (a : ApplyOut G) : Option Bytes :=
  match ecPointVectorToProto v.group a.evals with
  | .ok es => some (block (applyTranscript v.params a.pk (BN.natToBytes a.cm.toNat) es
      a.proof.commitDummy a.proof.dummyGs))
  | _ => none

theorem applyChallenge_iff (M : Made gs h n v) (hc : v.params.chal ≤ 511) {H : Hashes}
    {o : Bytes → Digest} {a : ApplyOut G} {c : Int} :
    applyChallenge (withSha512 H o) v a.evals a.pk a.cm a.proof.commitDummy a.proof.dummyGs = .ok c ↔
      0 ≤ a.cm ∧ ∃ x, hashedApply v a = some x ∧
        c = ((chalOf v.params.chal.toNat (o x) : Nat) : Int) := by
  have := M.pos
  unfold applyChallenge hashedApply
  rcases lt_or_ge a.cm 0 with hn | hn
  · have : BN.toBytes a.cm = .crash := by simp [BN.toBytes, hn]
    simp [this, not_le.2 hn]
  · rw [BN.toBytes_of_nonneg hn, Res.ok_bind]
    cases hE : ecPointVectorToProto v.group a.evals with
    | err e => simp
    | crash => simp
    | ub => simp
    | ok es =>
      rw [Res.ok_bind, lshift64_ok _ (by omega) (by omega), Res.ok_bind, one_mul,
        randomOracle_two (by omega) (by omega)]
      simp [hn, eq_comm]

theorem verifyApply_hash (M : Made gs h n v) (hc : v.params.chal ≤ 511) (H : Hashes)
    (o : Bytes → Digest) (a : ApplyOut G) :
    verifyApplyProof (withSha512 H o) v a.evals a.pk a.cm a.proof = .ok () ↔
      ∃ x, hashedApply v a = some x ∧
        verifyApplyProof (withSha512 H fun _ => o x) v a.evals a.pk a.cm a.proof = .ok () := by
  constructor
  · intro hv
    obtain ⟨ds, c, h1, h2, h3, h4, h5, h6⟩ := (verifyApply_iff M _ _ _ _).1 hv
    obtain ⟨h0, x, hx, rfl⟩ := (applyChallenge_iff M hc).1 h5
    refine ⟨x, hx, (verifyApply_iff M _ _ _ _).2 ⟨ds, _, h1, h2, h3, h4, ?_, h6⟩⟩
    exact (applyChallenge_iff M hc).2 ⟨h0, x, hx, rfl⟩
  · rintro ⟨x, hx, hv⟩
    obtain ⟨ds, c, h1, h2, h3, h4, h5, h6⟩ := (verifyApply_iff M _ _ _ _).1 hv
    obtain ⟨h0, x', hx', rfl⟩ := (applyChallenge_iff M hc).1 h5
    rw [hx] at hx'
    cases hx'
    refine (verifyApply_iff M _ _ _ _).2 ⟨ds, _, h1, h2, h3, h4, ?_, h6⟩
    exact (applyChallenge_iff M hc).2 ⟨h0, x, hx, rfl⟩

open scoped Classical in
/-- **C124**, evaluation proofs.  A prover of any computing power asks for at most `Q` hashes and
outputs evaluations, a public key, a commitment to messages and a proof; it is accepted with
probability `a`.  With probability at least `a (a / (Q + 1) - 2^-chal)` it and its second run (same
answers up to the question the proof is made for, new answers from then on) give accepted proofs
`π`, `π'` for the same evaluations, key and commitment with different challenges `c`, `c'`, and then
every evaluation is the base point times the inverse of an exponent `e` with
`e (c - c') = z - z'` modulo the order, where the `z - z'` open the product of the commitment and
the public key to the power `c - c'`.  (Challenges are not longer than the order.) -/
theorem C124_apply (M : Made gs h n v) (hchal : v.params.chal ≤ 511)
    (hint : IsInt64 v.params.sec ∧ IsInt64 v.params.chal)
    (horder : 2 ^ v.params.chal.toNat ≤ v.group.order) (H : Hashes) (B : Bytes → Digest)
    (D : Finset Bytes) (hlen : ∀ x ∈ D, x.length ≤ 2 ^ 64) (Q : Nat)
    (prover : Prog Bytes Digest (ApplyOut G)) (hQ : prover.AsksAtMost Q)
    (hD : ∀ o x, hashedApply v (prover.run o) = some x → x ∈ D) (a : ℚ)
    (ha : a = prob (fun f : D → Digest => verifyApplyProof (withSha512 H (graft B D f)) v
      (prover.run (graft B D f)).evals (prover.run (graft B D f)).pk (prover.run (graft B D f)).cm
      (prover.run (graft B D f)).proof = .ok ())) :
    a * (a / (Q + 1) - 1 / 2 ^ v.params.chal.toNat) ≤
      prob (fun t : (D → Digest) × (D → Digest) => ∃ x evals pk cm π π' c c',
        hashedApply v (prover.run (graft B D t.1)) = some x ∧
        prover.run (graft B D t.1) = ⟨evals, pk, cm, π⟩ ∧
        prover.run (prover.rewind (graft B D t.1) (graft B D t.2) x) = ⟨evals, pk, cm, π'⟩ ∧
        0 ≤ c ∧ c < 2 ^ v.params.chal.toNat ∧ 0 ≤ c' ∧ c' < 2 ^ v.params.chal.toNat ∧ c ≠ c' ∧
        (∀ z ∈ parseBigNumVectorProto π.masked ++ parseBigNumVectorProto π'.masked,
          0 ≤ z ∧ (BN.bitLength z : Int) ≤
            BN.bitLength v.group.order + v.params.chal + v.params.sec + 2) ∧
        (∀ (i : Nat) (σ : G), evals[i]? = some σ → ∃ z z' e j : Int,
          (parseBigNumVectorProto π.masked)[i]? = some z ∧
          (parseBigNumVectorProto π'.masked)[i]? = some z' ∧
          e * (c - c') ≡ z - z' [ZMOD v.group.order] ∧
          j * e ≡ 1 [ZMOD v.group.order] ∧ σ = j • v.base) ∧
        commitment gs h n (parseBigNumVectorProto π.masked) (BN.ofBytes π.maskedOpening) *
            (cm * BN.ofBytes pk) ^ c'.toNat ≡
          commitment gs h n (parseBigNumVectorProto π'.masked) (BN.ofBytes π'.maskedOpening) *
            (cm * BN.ofBytes pk) ^ c.toNat [ZMOD n]) := by
  refine fork_verify (c := v.params.chal.toNat) (by omega)
    (fun o a => verifyApplyProof (withSha512 H o) v a.evals a.pk a.cm a.proof = .ok ())
    (hashedApply v) (verifyApply_hash M hchal H) prover Q D B hQ hD _ ?_ _ ?_ ha
  · exact fun _ => Iff.rfl
  intro f g x e1 e2 v1 v2 hne
  have hl := hlen _ (hD _ _ e1)
  rcases hr : prover.run (graft B D f) with ⟨es, pk, cm, π⟩
  rcases hr' : prover.run (prover.rewind (graft B D f) (graft B D g) x) with ⟨es', pk', cm', π'⟩
  rw [hr] at e1 v1
  rw [hr'] at e2 v2
  obtain ⟨ds, c, -, -, -, -, h5, -⟩ := (verifyApply_iff M _ _ _ _).1 v1
  obtain ⟨h0, x1, hx1, rfl⟩ := (applyChallenge_iff M hchal).1 h5
  obtain ⟨ds', c', -, -, -, -, h5', -⟩ := (verifyApply_iff M _ _ _ _).1 v2
  obtain ⟨h0', x2, hx2, rfl⟩ := (applyChallenge_iff M hchal).1 h5'
  rw [e1] at hx1
  cases hx1
  rw [e2] at hx2
  cases hx2
  have ht := e1.trans e2.symm
  unfold hashedApply at e1 ht
  cases hE : ecPointVectorToProto v.group es with
  | err e => simp [hE] at e1
  | crash => simp [hE] at e1
  | ub => simp [hE] at e1
  | ok bs =>
    cases hE' : ecPointVectorToProto v.group es' with
    | err e => simp [hE, hE'] at ht
    | crash => simp [hE, hE'] at ht
    | ub => simp [hE, hE'] at ht
    | ok bs' =>
      simp only [hE, hE', Option.some.injEq] at ht e1
      rw [← e1] at hl
      obtain ⟨-, rfl, hcm, rfl, hm1, hm2⟩ := C71_apply_transcript _ _ _ _ _ _ _ _ _ _ _ _ hint hint
        (Nat.lt_of_succ_le hl) (block_inj ht)
      have hcm' : cm = cm' := by
        have := congrArg BN.ofBytes hcm
        rw [BN.ofBytes_natToBytes, BN.ofBytes_natToBytes] at this
        dsimp only at h0 h0'
        omega
      subst hcm'
      have hes : es = es' := by
        have k1 := (ecPoints_ok M.lawful hE).2
        have k2 := (ecPoints_ok M.lawful hE').2
        rw [k1] at k2
        exact Res.ok.inj k2
      subst hes
      have hcne : ((chalOf v.params.chal.toNat (graft B D f x) : Nat) : Int) ≠
          ((chalOf v.params.chal.toNat
            (prover.rewind (graft B D f) (graft B D g) x x) : Nat) : Int) := by
        exact_mod_cast hne
      have l1 : ((chalOf v.params.chal.toNat (graft B D f x) : Nat) : Int) <
          2 ^ v.params.chal.toNat := by exact_mod_cast chalOf_lt _ _
      have l2 : ((chalOf v.params.chal.toNat
          (prover.rewind (graft B D f) (graft B D g) x x) : Nat) : Int) <
          2 ^ v.params.chal.toNat := by exact_mod_cast chalOf_lt _ _
      have ho : (2 : Int) ^ v.params.chal.toNat ≤ v.group.order := by exact_mod_cast horder
      refine ⟨x, es, pk, cm, π, π', _, _, by simp only [hashedApply, hE, e1], rfl, hr',
        Int.natCast_nonneg _, l1, Int.natCast_nonneg _, l2, hcne, ?_, ?_,
        (C59_special_soundness M _ _ es pk cm π π' v1 v2 ⟨hm1, hm2⟩ _ _ h5 h5').2.2.2.2⟩
      · intro z hz
        rcases List.mem_append.1 hz with hz | hz
        · exact C59_bounded M _ _ _ _ _ v1 z hz
        · exact C59_bounded M _ _ _ _ _ v2 z hz
      · intro i σ hσ
        obtain ⟨z, z', e, k1, k2, k3, j, k4, k5⟩ := C59_extract M _ _ es pk cm π π' v1 v2 ⟨hm1, hm2⟩
          _ _ h5 h5' (fun hd => by
            have := Int.eq_zero_of_abs_lt_dvd hd (by
              rw [abs_lt]
              constructor <;> omega)
            omega) i σ hσ
        exact ⟨z, z', e, j, k1, k2, k3, k4, k5⟩

/-! In the toy instance a prover that evaluates at two messages is always accepted. -/

def toyEvals : Res Bool := do
  let ped ← Ped.create [2, 3] 5 77 4
  let v ← Vrf.create toyParams toyEc ped
  let (pk, sk, _) ← generateKeyPair (toyHash 0) v ⟨2, 4, 30, 100⟩
  let es ← Vrf.apply v [1, 2] sk
  let cm ← Ped.commitWithRand ped [1, 2] 6
  let bs ← ecPointVectorToProto toyEc es
  let ps ← (List.range 8).mapM fun c => generateApplyProof (toyHash (Fin.ofNat 256 (16 * c))) v
    [1, 2] es pk sk cm 6 ⟨20, fun i => 30 + i, 50⟩
  return decide (es = [3, 9] ∧ 0 ≤ cm ∧ (block (applyTranscript v.params pk
      (BN.natToBytes cm.toNat) bs (ps.getD 0 ⟨[], [], [], []⟩).commitDummy
      (ps.getD 0 ⟨[], [], [], []⟩).dummyGs)).length ≤ 1000) && (List.range 8).all fun c => decide (
    verifyApplyProof (toyHash (Fin.ofNat 256 (16 * c))) v es pk cm (ps.getD c ⟨[], [], [], []⟩) =
      .ok () ∧
    applyChallenge (toyHash (Fin.ofNat 256 (16 * c))) v es pk cm
      (ps.getD c ⟨[], [], [], []⟩).commitDummy (ps.getD c ⟨[], [], [], []⟩).dummyGs = .ok (c : Int) ∧
    (ps.getD c ⟨[], [], [], []⟩).commitDummy = (ps.getD 0 ⟨[], [], [], []⟩).commitDummy ∧
    (ps.getD c ⟨[], [], [], []⟩).dummyGs = (ps.getD 0 ⟨[], [], [], []⟩).dummyGs)

open scoped Classical in
theorem C124_apply_example : ∃ (v : DyVrf (ZMod 11)) (D : Finset Bytes)
    (prover : Prog Bytes Digest (ApplyOut (ZMod 11))),
    Made [2, 3] 5 77 v ∧ v.params.chal = 3 ∧ (IsInt64 v.params.sec ∧ IsInt64 v.params.chal) ∧
    2 ^ v.params.chal.toNat ≤ v.group.order ∧
    (∀ x ∈ D, x.length ≤ 2 ^ 64) ∧ prover.AsksAtMost 1 ∧
    (∀ o x, hashedApply v (prover.run o) = some x → x ∈ D) ∧
    (∀ o, (prover.run o).evals = [3, 9]) ∧
    ∀ (H : Hashes) (B : Bytes → Digest), (1 : ℚ) = prob (fun f : D → Digest =>
      verifyApplyProof (withSha512 H (graft B D f)) v (prover.run (graft B D f)).evals
        (prover.run (graft B D f)).pk (prover.run (graft B D f)).cm
        (prover.run (graft B D f)).proof = .ok ()) := by
  have h : toyEvals = .ok true := by decide +kernel
  unfold toyEvals at h
  simp only [Res.bind_eq_ok, Res.pure_eq, Res.ok.injEq, List.all_eq_true, List.mem_range,
    Bool.and_eq_true, decide_eq_true_eq] at h
  obtain ⟨ped, hp, v, hv, ⟨pk, sk, _⟩, -, es, -, cm, -, bs, hbs, ps, -, ⟨hes, h0, hl⟩, ht⟩ := h
  have hv' : v = ⟨toyParams, toyEc, 1, ped⟩ := (Res.ok.inj hv).symm
  have M : Made [2, 3] 5 77 v := by
    rw [hv']
    exact ⟨toyEc_lawful, by decide, by decide, by decide,
      ⟨4, by decide, by decide, hp⟩, rfl, (by decide : toyParams.chal ≤ 129000),
      (by decide : toyParams.sec ≤ 2 ^ 30)⟩
  have hpar : v.params = toyParams := by rw [hv']
  have hgr : v.group = toyEc := by rw [hv']
  have hint : IsInt64 toyParams.sec ∧ IsInt64 toyParams.chal :=
    ⟨⟨by decide, by decide⟩, by decide, by decide⟩
  have h511 : v.params.chal ≤ 511 := by rw [hpar]; decide
  have e3 : v.params.chal.toNat = 3 := by rw [hpar]; decide
  let out : Nat → ApplyOut (ZMod 11) := fun c => ⟨es, pk, cm, ps.getD c ⟨[], [], [], []⟩⟩
  let X : Bytes := block (applyTranscript v.params pk (BN.natToBytes cm.toNat) bs
    (ps.getD 0 ⟨[], [], [], []⟩).commitDummy (ps.getD 0 ⟨[], [], [], []⟩).dummyGs)
  have hX : ∀ y, hashedApply v (out (chalOf 3 y)) = some X := by
    intro y
    obtain ⟨-, -, t1, t2⟩ := ht _ (chalOf_lt 3 y)
    unfold hashedApply
    rw [hgr]
    simp only [out, hbs, t1, t2]
    rfl
  refine ⟨v, {X}, fromTable X 3 out, M, by rw [hpar]; rfl, by rw [hpar]; exact hint,
    by rw [hpar, hgr]; decide, ?_, fun _ => trivial, ?_, fun _ => hes, ?_⟩
  · intro x hx
    rw [Finset.mem_singleton.1 hx]
    exact hl.trans (by decide)
  · intro o x hx
    simp only [fromTable, Prog.run] at hx
    rw [hX] at hx
    cases hx
    exact Finset.mem_singleton_self _
  · intro H B
    symm
    refine prob_eq_one fun f => ?_
    simp only [fromTable, Prog.run]
    set y := graft B {X} f X
    refine (verifyApply_hash M h511 H _ (out (chalOf 3 y))).2 ⟨X, hX y, ?_⟩
    change verifyApplyProof (withSha512 H fun _ => y) v es pk cm _ = .ok ()
    obtain ⟨t1, t2, -, -⟩ := ht _ (chalOf_lt 3 y)
    obtain ⟨ds, c, q1, q2, q3, q4, q5, q6⟩ := (verifyApply_iff M _ _ _ _).1 t1
    rw [t2] at q5
    cases q5
    refine (verifyApply_iff M _ _ _ _).2 ⟨ds, _, q1, q2, q3, q4, ?_, q6⟩
    refine (applyChallenge_iff (a := out (chalOf 3 y)) M h511).2 ⟨h0, X, hX y, ?_⟩
    rw [e3]

end vrf

/-! ### Request proofs of the oblivious signature -/

section bb
open PJC.Bb PJC.DJ
variable {gs : List Int} {h n : Int} {N s : Nat} {g : Int} {ys : List Int} {v : BbSig G}

/-- What a client outputs: the request, its proof and the commitments to messages and nonces. -/
structure ReqOut where
  req : BbRequest
  proof : BbReqProof
  cm : Int
  cr : Int

/-- The statement of a request proof. -/
def ReqOut.statement (v : BbSig G) (pk : BbPublicKey) (a : ReqOut) : ReqStatement :=
  ⟨v.params, pk, BN.natToBytes a.cm.toNat, BN.natToBytes a.cr.toNat, a.proof.commitAs,
    a.proof.commitBs, a.proof.commitAlphas, a.proof.commitGammas, a.req⟩

/-- The string hashed for a request and its proof. -/
def hashedReq (v : BbSig G) (pk : BbPublicKey) (a : ReqOut) : Option Bytes :=
  match reqFirst v pk a.req a.proof a.cm a.cr with
  | .ok m => some (block (requestTranscript (a.statement v pk) m))
  | _ => none

theorem requestChallenge_eq (h1 : 1 ≤ v.params.chal) (h2 : v.params.chal ≤ 511) (H : Hashes)
    (o : Bytes → Digest) (t : ReqStatement) (m : BbReqMessage1) :
    requestChallenge (withSha512 H o) v t m =
      .ok ((chalOf v.params.chal.toNat (o (block (requestTranscript t m))) : Nat) : Int) := by
  unfold requestChallenge
  rw [lshift64_ok _ (by omega) (by omega), Res.ok_bind, one_mul,
    randomOracle_two (by omega) (by omega)]

theorem verifyRequest_iff (H : Hashes) (v : BbSig G) (pk : BbPublicKey) (a : ReqOut) :
    verifyRequest H v pk a.req a.proof a.cm a.cr = .ok () ↔
      requestSizes v a.req a.proof = .ok () ∧ 0 ≤ a.cm ∧ 0 ≤ a.cr ∧
      requestBounds v a.proof.message2.parse = .ok () ∧
      ∃ m, reqFirst v pk a.req a.proof a.cm a.cr = .ok m ∧
        requestChallenge H v (a.statement v pk) m = .ok (BN.ofBytes a.proof.challenge) := by
  unfold verifyRequest reqFirst
  simp only [Res.bind_eq_ok]
  constructor
  · rintro ⟨_, hsz, bm, hbm, br, hbr, cts, hcts, _, hbd, masked, hmasked, keys, hkeys, mcts, hmcts,
      D, hD, m1, hm1, c', hc', hv⟩
    obtain ⟨p1, -⟩ := toBytes_eq_ok hbm
    obtain ⟨p2, -⟩ := toBytes_eq_ok hbr
    rw [BN.toBytes_of_nonneg p1] at hbm
    rw [BN.toBytes_of_nonneg p2] at hbr
    cases hbm
    cases hbr
    split at hv
    · cases hv
    rename_i hcc
    push Not at hcc
    subst hcc
    exact ⟨hsz, p1, p2, hbd, m1, ⟨cts, hcts, masked, hmasked, keys, hkeys, mcts, hmcts, D, hD, hm1⟩,
      hc'⟩
  · rintro ⟨hsz, p1, p2, hbd, m1, ⟨cts, hcts, masked, hmasked, keys, hkeys, mcts, hmcts, D, hD, hm1⟩,
      hc'⟩
    exact ⟨(), hsz, _, BN.toBytes_of_nonneg p1, _, BN.toBytes_of_nonneg p2, cts, hcts, (), hbd,
      masked, hmasked, keys, hkeys, mcts, hmcts, D, hD, m1, hm1, _, hc', by simp⟩

theorem verifyRequest_hash (h1 : 1 ≤ v.params.chal) (h2 : v.params.chal ≤ 511) (H : Hashes)
    (pk : BbPublicKey) (o : Bytes → Digest) (a : ReqOut) :
    verifyRequest (withSha512 H o) v pk a.req a.proof a.cm a.cr = .ok () ↔
      ∃ x, hashedReq v pk a = some x ∧
        verifyRequest (withSha512 H fun _ => o x) v pk a.req a.proof a.cm a.cr = .ok () := by
  simp only [verifyRequest_iff, requestChallenge_eq h1 h2]
  constructor
  · rintro ⟨p1, p2, p3, p4, m, hm, hc⟩
    exact ⟨_, by simp only [hashedReq, hm], p1, p2, p3, p4, m, hm, hc⟩
  · rintro ⟨x, hx, p1, p2, p3, p4, m, hm, hc⟩
    simp only [hashedReq, hm, Option.some.injEq] at hx
    exact ⟨p1, p2, p3, p4, m, hm, by rw [hx]; exact hc⟩

/-- What two accepted request proofs for one statement give: with `d` the (positive) difference of
their challenges, openings of the `d`-th powers of all commitments, and what the `d`-th powers of
the ciphertexts decrypt to. -/
structure Extracted (gs : List Int) (h n : Int) (N s : Nat) (ys : List Int) (v : BbSig G)
    (sk : CsPrivate) (bsk : BbPrivateKey) (req : BbRequest) (cm cr : Int) (p₁ p₂ : BbReqProof) :
    Prop where
  pos : BN.ofBytes p₂.challenge < BN.ofBytes p₁.challenge
  small : BN.ofBytes p₁.challenge < 2 ^ v.params.chal.toNat
  openings : ReqOpenings gs h n req cm cr p₁ p₂
    (BN.ofBytes p₁.challenge - BN.ofBytes p₂.challenge).toNat
  plain : ∀ i < req.cts.length, ∃ ct ct',
    Cs.parseCiphertextProto v.cs (req.cts.getD i ⟨[], []⟩) = .ok ct ∧
    Cs.multiply v.cs ct (BN.ofBytes p₁.challenge - BN.ofBytes p₂.challenge) = .ok ct' ∧
    Cs.decrypt sk ct' = .ok ((List.range ys.length).map fun j =>
      (maskedBeta v.group.order (BN.ofBytes bsk.k) (BN.ofBytes bsk.y) req.num p₁
          (i * ys.length + j) -
        maskedBeta v.group.order (BN.ofBytes bsk.k) (BN.ofBytes bsk.y) req.num p₂
          (i * ys.length + j)) % (N : Int) ^ s)

open scoped Classical in
/-- **C124**, request proofs.  A client of any computing power asks for at most `Q` hashes and
outputs a request, commitments and a proof; the signer accepts with probability `a`.  With
probability at least `a (a / (Q + 1) - 2^-chal)` it and its second run (same answers up to the
question the proof is made for, new answers from then on) give accepted proofs for the same request
and commitments with different challenges, and then the openings of C95. -/
theorem C124_request (xs : List Int) (sk : CsPrivate) (S : BbSetup gs h n N s g ys xs v sk)
    (pk : BbPublicKey) (bsk : BbPrivateKey) (wk wy : Nat) (drawK drawY : Nat → Int)
    (hdk : ∀ i < ys.length, 0 ≤ drawK i ∧ Int.gcd (drawK i) N = 1)
    (hdy : ∀ i < ys.length, 0 ≤ drawY i ∧ Int.gcd (drawY i) N = 1)
    (hkeys : generateKeys v wk wy drawK drawY = .ok (pk, bsk)) (hchal : v.params.chal ≤ 511)
    (htyped : v.params.Typed) (hgs : gs.length < 2 ^ 64) (H : Hashes) (B : Bytes → Digest)
    (D : Finset Bytes) (hlen : ∀ x ∈ D, x.length ≤ 2 ^ 64) (Q : Nat)
    (client : Prog Bytes Digest ReqOut) (hQ : client.AsksAtMost Q)
    (hD : ∀ o x, hashedReq v pk (client.run o) = some x → x ∈ D) (a : ℚ)
    (ha : a = prob (fun f : D → Digest => verifyRequest (withSha512 H (graft B D f)) v pk
      (client.run (graft B D f)).req (client.run (graft B D f)).proof
      (client.run (graft B D f)).cm (client.run (graft B D f)).cr = .ok ())) :
    a * (a / (Q + 1) - 1 / 2 ^ v.params.chal.toNat) ≤
      prob (fun t : (D → Digest) × (D → Digest) => ∃ x req cm cr p p',
        hashedReq v pk (client.run (graft B D t.1)) = some x ∧
        client.run (graft B D t.1) = ⟨req, p, cm, cr⟩ ∧
        client.run (client.rewind (graft B D t.1) (graft B D t.2) x) = ⟨req, p', cm, cr⟩ ∧
        (Extracted gs h n N s ys v sk bsk req cm cr p p' ∨
          Extracted gs h n N s ys v sk bsk req cm cr p' p)) := by
  have M := S.made
  have h1 : 1 ≤ v.params.chal := by
    have := M.chal0
    omega
  have acc : ∀ (K : Hashes) (b : ReqOut) m, reqFirst v pk b.req b.proof b.cm b.cr = .ok m →
      verifyRequest K v pk b.req b.proof b.cm b.cr = .ok () →
      ReqAccepted K gs h n N s g ys v pk b.req b.proof b.cm b.cr m := by
    intro K b m hm hv
    have U := M.units
    obtain ⟨k, y, hk1, hk2, hy1, hy2, hg⟩ := M.generateKeys_ok wk wy hdk hdy
    rw [hg] at hkeys
    simp only [Res.ok.injEq, Prod.mk.injEq] at hkeys
    obtain ⟨rfl, rfl⟩ := hkeys
    have K := M.keyOk (keyCts_wf U k drawK) (keyCts_wf U y drawY) (keyCts_length ..)
      (keyCts_length ..)
    obtain ⟨m', hm', A⟩ := M.request_accepted K hv
    rw [hm] at hm'
    cases hm'
    exact A
  refine fork_verify (c := v.params.chal.toNat) (by omega)
    (fun o a => verifyRequest (withSha512 H o) v pk a.req a.proof a.cm a.cr = .ok ())
    (hashedReq v pk) (verifyRequest_hash h1 hchal H pk) client Q D B hQ hD _ ?_ _ ?_ ha
  · exact fun _ => Iff.rfl
  intro f g' x e1 e2 v1 v2 hne
  have hl := hlen _ (hD _ _ e1)
  rcases hr : client.run (graft B D f) with ⟨req, p, cm, cr⟩
  rcases hr' : client.run (client.rewind (graft B D f) (graft B D g') x) with ⟨req', p', cm', cr'⟩
  rw [hr] at e1 v1
  rw [hr'] at e2 v2
  obtain ⟨-, p1, p2, -, m, hm, hc⟩ := (verifyRequest_iff _ _ _ _).1 v1
  obtain ⟨-, p1', p2', -, m', hm', hc'⟩ := (verifyRequest_iff _ _ _ _).1 v2
  have A := acc _ _ m hm v1
  have A' := acc _ _ m' hm' v2
  rw [requestChallenge_eq h1 hchal] at hc hc'
  have t1 := e1
  simp only [hashedReq, hm, Option.some.injEq] at t1
  simp only [hashedReq, hm', Option.some.injEq] at e2
  rw [t1] at hc
  rw [e2] at hc'
  rw [← t1] at hl
  obtain ⟨es, em⟩ := C74_request_transcript _ _ _ _ ⟨htyped, lt_of_le_of_lt A.num hgs⟩
    ⟨htyped, lt_of_le_of_lt A'.num hgs⟩ (Nat.lt_of_succ_le hl) (block_inj (t1.trans e2.symm))
  simp only [ReqOut.statement, ReqStatement.mk.injEq, true_and] at es
  obtain ⟨ecm, ecr, s1, s2, s3, s4, rfl⟩ := es
  have hcm : cm = cm' := by
    have := congrArg BN.ofBytes ecm
    rw [BN.ofBytes_natToBytes, BN.ofBytes_natToBytes] at this
    dsimp only at p1 p1'
    omega
  have hcr : cr = cr' := by
    have := congrArg BN.ofBytes ecr
    rw [BN.ofBytes_natToBytes, BN.ofBytes_natToBytes] at this
    dsimp only at p2 p2'
    omega
  subst hcm hcr em
  dsimp only at hc hc' A A'
  have q1 := Res.ok.inj hc
  have q2 := Res.ok.inj hc'
  have hcne : BN.ofBytes p.challenge ≠ BN.ofBytes p'.challenge := by
    rw [← q1, ← q2]
    exact_mod_cast hne
  have l1 : BN.ofBytes p.challenge < 2 ^ v.params.chal.toNat := by
    rw [← q1]
    exact_mod_cast chalOf_lt _ _
  have l2 : BN.ofBytes p'.challenge < 2 ^ v.params.chal.toNat := by
    rw [← q2]
    exact_mod_cast chalOf_lt _ _
  refine ⟨x, req, cm, cr, p, p', e1, rfl, hr', ?_⟩
  rcases lt_or_gt_of_ne hcne with hlt | hlt
  · right
    exact ⟨hlt, l2, C95_openings gs h n N s g ys v pk _ _ req p' p cm cr m A' A
      ⟨s1, s2, s3, s4⟩ hlt.le, fun i hi => C95_decrypts gs h n N s g ys xs v sk S pk bsk wk wy drawK
        drawY hdk hdy hkeys _ _ req p' p cm cr m A' A hlt.le i hi⟩
  · left
    exact ⟨hlt, l1, C95_openings gs h n N s g ys v pk _ _ req p p' cm cr m A A'
      ⟨s1.symm, s2.symm, s3.symm, s4.symm⟩ hlt.le, fun i hi => C95_decrypts gs h n N s g ys xs v sk
        S pk bsk wk wy drawK drawY hdk hdy hkeys _ _ req p p' cm cr m A A' hlt.le i hi⟩

/-! In a toy instance (challenges of two bits) the honest client is always accepted. -/

def toyClientParams : BbParams := { toyBbParams with chal := 2 }

def toyClient : Res Bool := do
  let ped ← Ped.create toyBbGs 7 1062347 2
  let cs ← Cs.newPublic ⟨false, 3⟩ 221 3 3 toyBbYs
  let _ ← Cs.newPrivate ⟨true, 2⟩ 221 3 3 toyBbYs toyBbXs
  let v ← create toyClientParams toyEc cs ped
  let (pk, _) ← generateKeys v 4 6 (fun i => 2 + i) (fun i => 4 + i)
  let cm ← Ped.commitWithRand ped [1, 2, 10] 55
  let cr ← Ped.commitWithRand ped [3, 0, 9] 66
  let r ← generateRequest (toyHash 0) v [1, 2, 10] [3, 0, 9] pk cm 55 cr 66 toyReqDraws
  let m ← reqFirst v pk r.1 r.2.1 cm cr
  let rs ← (List.range 4).mapM fun c => generateRequest (toyHash (Fin.ofNat 256 (32 * c))) v
    [1, 2, 10] [3, 0, 9] pk cm 55 cr 66 toyReqDraws
  return decide (r.1.num = 3 ∧ (block (requestTranscript
      (ReqOut.statement v pk ⟨r.1, r.2.1, cm, cr⟩) m)).length ≤ 1000) &&
    (List.range 4).all fun c => decide (
    verifyRequest (toyHash (Fin.ofNat 256 (32 * c))) v pk r.1 (rs.getD c r).2.1 cm cr = .ok () ∧
    BN.ofBytes (rs.getD c r).2.1.challenge = c ∧
    reqFirst v pk r.1 (rs.getD c r).2.1 cm cr = .ok m ∧
    (rs.getD c r).2.1.commitAs = r.2.1.commitAs ∧ (rs.getD c r).2.1.commitBs = r.2.1.commitBs ∧
    (rs.getD c r).2.1.commitAlphas = r.2.1.commitAlphas ∧
    (rs.getD c r).2.1.commitGammas = r.2.1.commitGammas)

open scoped Classical in
theorem C124_request_example : ∃ (v : BbSig (ZMod 11)) (sk : CsPrivate) (pk : BbPublicKey)
    (bsk : BbPrivateKey) (D : Finset Bytes) (client : Prog Bytes Digest ReqOut),
    BbSetup toyBbGs 7 1062347 221 3 3 toyBbYs toyBbXs v sk ∧
    generateKeys v 4 6 (fun i => 2 + i) (fun i => 4 + i) = .ok (pk, bsk) ∧
    v.params.chal = 2 ∧ v.params.Typed ∧
    (∀ x ∈ D, x.length ≤ 2 ^ 64) ∧ client.AsksAtMost 1 ∧
    (∀ o x, hashedReq v pk (client.run o) = some x → x ∈ D) ∧
    (∀ o, (client.run o).req.num = 3) ∧
    ∀ (H : Hashes) (B : Bytes → Digest), (1 : ℚ) = prob (fun f : D → Digest =>
      verifyRequest (withSha512 H (graft B D f)) v pk (client.run (graft B D f)).req
        (client.run (graft B D f)).proof (client.run (graft B D f)).cm
        (client.run (graft B D f)).cr = .ok ()) := by
  have h : toyClient = .ok true := by decide +kernel
  unfold toyClient at h
  simp only [Res.bind_eq_ok, Res.pure_eq, Res.ok.injEq, List.all_eq_true, List.mem_range,
    Bool.and_eq_true, decide_eq_true_eq] at h
  obtain ⟨ped, hped, cs, hcs, sk, hsk, v, hv, ⟨pk, bsk⟩, hk, cm, -, cr, -, r, -, m, hm, rs, -,
    ⟨hnum, hl⟩, ht⟩ := h
  obtain ⟨e1, e2, rfl, rfl⟩ := create_eq_ok hv
  have S : BbSetup toyBbGs 7 1062347 221 3 3 toyBbYs toyBbXs v sk :=
    ⟨e2 ▸ toyEc_lawful, by decide, by decide,
    by decide, ⟨2, by decide, by decide, hped⟩, by decide,
    ⟨by decide, by decide, by decide, by decide +kernel⟩, by decide, ⟨_, hcs⟩, ⟨_, hsk⟩,
    by rw [e1, e2]; exact hv, by rw [e1]; decide, by rw [e1]; decide⟩
  have h1 : 1 ≤ v.params.chal := by rw [e1]; decide
  have h511 : v.params.chal ≤ 511 := by rw [e1]; decide
  have e2' : v.params.chal.toNat = 2 := by rw [e1]; decide
  let out : Nat → ReqOut := fun c => ⟨r.1, (rs.getD c r).2.1, cm, cr⟩
  let X : Bytes := block (requestTranscript (ReqOut.statement v pk ⟨r.1, r.2.1, cm, cr⟩) m)
  have hX : ∀ y, hashedReq v pk (out (chalOf 2 y)) = some X := by
    intro y
    obtain ⟨-, -, t1, t2, t3, t4, t5⟩ := ht _ (chalOf_lt 2 y)
    unfold hashedReq
    simp only [out, t1, ReqOut.statement, t2, t3, t4, t5]
    rfl
  refine ⟨v, sk, pk, bsk, {X}, fromTable X 2 out, S, hk, by rw [e1]; rfl, ?_, ?_, fun _ => trivial,
    ?_, fun _ => hnum, ?_⟩
  · rw [e1]
    exact ⟨⟨by decide, by decide⟩, ⟨by decide, by decide⟩, by decide⟩
  · intro x hx
    rw [Finset.mem_singleton.1 hx]
    exact hl.trans (by decide)
  · intro o x hx
    simp only [fromTable, Prog.run] at hx
    rw [hX] at hx
    cases hx
    exact Finset.mem_singleton_self _
  · intro H B
    symm
    refine prob_eq_one fun f => ?_
    simp only [fromTable, Prog.run]
    set y := graft B {X} f X
    refine (verifyRequest_hash h1 h511 H pk _ (out (chalOf 2 y))).2 ⟨X, hX y, ?_⟩
    change verifyRequest (withSha512 H fun _ => y) v pk (out (chalOf 2 y)).req
      (out (chalOf 2 y)).proof (out (chalOf 2 y)).cm (out (chalOf 2 y)).cr = .ok ()
    obtain ⟨t1, t2, t3, -⟩ := ht _ (chalOf_lt 2 y)
    obtain ⟨q1, q2, q3, q4, -⟩ := (verifyRequest_iff _ v pk (out (chalOf 2 y))).1 t1
    refine (verifyRequest_iff _ _ _ _).2 ⟨q1, q2, q3, q4, m, t3, ?_⟩
    rw [requestChallenge_eq h1 h511, e2']
    exact congrArg Res.ok t2.symm

end bb
end PJC.RomKnow
