import Verif.Props.VrfUnique
import Verif.Props.VrfZk
import Verif.Props.DyPrf
import Verif.Props.Transcript
import Verif.Lemmas.Resample
/-
Property C132: values of the verifiable random function look random also to who is given the public
key and both proofs.

Specification.  In the real game everything is run: a random generator is taken as base, a key pair
is generated with its proof, the function is evaluated and the evaluations are proved; a spy sees the
base, the public key, both proofs and the evaluations, and it may ask the hash function everywhere.
In the ideal game the evaluations are random points, and everything else that the spy sees is made
by a simulator that is given only the base and those points.
-/
set_option linter.unusedSectionVars false
namespace PJC.VrfPrf
open PJC PJC.Ped PJC.Vrf PJC.Prob PJC.Props PJC.Oracle PJC.Stat PJC.RomKnow PJC.SafeFactor PJC.PedBind
  PJC.Protocol PJC.DyPrf Classical

variable {G : Type} [AddCommGroup G] [DecidableEq G]

/-! ### Specification -/

/-- What is published. -/
structure View (G : Type) where
  base : G
  pk : Bytes
  keyProof : VrfKeyProof
  evals : List G
  proof : VrfApplyProof

/-- A spy sees a view, the hash function, and coins. -/
abbrev VSpy (G C : Type) : Type := View G → (Bytes → Digest) → C → Prop

/-- The object with a given base. -/
def obj (params : VrfParams) (E : EcGroup G) (ped : Pedersen) (base : G) : Res (DyVrf G) := do
  let bb ← E.toBytesCompressed base
  Vrf.create { params with baseG := bb } E ped

/-- A run of the library. -/
def run (H : Hashes) (params : VrfParams) (E : EcGroup G) (ped : Pedersen) (ms : List Int) (r : Int)
    (gword : Nat) (kd : KeyDraws) (ad : ApplyDraws) : Res (View G) := do
  let base ← E.getRandomGenerator gword
  let v ← obj params E ped base
  let (pk, sk, π) ← generateKeyPair H v kd
  let es ← Vrf.apply v ms sk
  let cm ← Ped.commitWithRand ped ms r
  let π' ← generateApplyProof H v ms es pk sk cm r ad
  return ⟨base, pk, π, es, π'⟩

/-- The spy says yes. -/
def sayYes {C : Type} (A : VSpy G C) (c : C) : Res (View G × (Bytes → Digest)) → Prop
  | .ok V => A V.1 V.2 c
  | _ => False

/-- The bounds of the masks of the key proof. -/
def kB (params : VrfParams) (E : EcGroup G) (n : Nat) : Fin 2 → Nat :=
  ![E.order * 2 ^ (params.chal + params.sec).toNat, n * 2 ^ (params.chal + params.sec).toNat]

/-- The bounds of the masks of the proof of `L` evaluations. -/
def aB (params : VrfParams) (E : EcGroup G) (n L : Nat) : Mask L → Nat
  | none => E.order * 2 ^ (params.sec + params.chal).toNat
  | some none => n * 2 ^ (params.sec + params.chal).toNat
  | some (some _) => E.order * 2 ^ (params.sec + params.chal).toNat

/-- The draws of all the masks. -/
abbrev Masks (params : VrfParams) (E : EcGroup G) (n L : Nat) : Type :=
  ((i : Fin 2) → Fin (kB params E n i)) × ((i : Mask L) → Fin (aB params E n L i))

/-- A run with draws: base, key, opening, masks. -/
def runWith (H : Hashes) (params : VrfParams) (E : EcGroup G) (ped : Pedersen) (ms : List Int) (r : Int)
    (n : Nat) (t k : Draw E) (o : Fin n) (a : Masks params E n ms.length) : Res (View G) :=
  run H params E ped ms r t.val ⟨k.val, o.val, (a.1 0).val, (a.1 1).val⟩
    (drawsOf fun i => (a.2 i).val)

/-- The probability that the spy says yes in the real game.  Base, key, opening and masks are uniform
below their bounds, and SHA-512 is a random function on `D`. -/
noncomputable def realVrf (H : Hashes) (B : Bytes → Digest) (D : Finset Bytes) (params : VrfParams)
    (E : EcGroup G) (ped : Pedersen) (ms : List Int) (r : Int) (n : Nat) {C : Type} [Fintype C]
    (A : VSpy G C) : ℚ :=
  prob fun s : (C × Draw E × Draw E × Fin n) × Masks params E n ms.length × (D → Digest) =>
    sayYes A s.1.1 (do
      let V ← runWith (withSha512 H (graft B D s.2.2)) params E ped ms r n s.1.2.1 s.1.2.2.1 s.1.2.2.2
        s.2.1
      return (V, graft B D s.2.2))

/-- The strings that are hashed for a view. -/
def Hashed (params : VrfParams) (E : EcGroup G) (ped : Pedersen) (cm : Int) (V : View G) (x : Bytes) :
    Prop :=
  ∃ v, obj params E ped V.base = .ok v ∧
    (hashedKey v (V.pk, V.keyProof) = some x ∨ hashedApply v ⟨V.evals, V.pk, cm, V.proof⟩ = some x)

/-- Every string that is hashed in a run is in `D`. -/
def Covers (H : Hashes) (D : Finset Bytes) (params : VrfParams) (E : EcGroup G) (ped : Pedersen)
    (ms : List Int) (r : Int) (n : Nat) : Prop :=
  ∀ (O : Bytes → Digest) t k o a V cm x,
    runWith (withSha512 H O) params E ped ms r n t k o a = .ok V →
    Ped.commitWithRand ped ms r = .ok cm → Hashed params E ped cm V x → x ∈ D

/-- Give the hash function a value. -/
def program (O : Bytes → Digest) (x : Option Bytes) (y : Digest) : Bytes → Digest :=
  match x with
  | some x => Function.update O x y
  | none => O

/-- The simulator: it is given the base, evaluations and a public key, draws two digests and all
responses, computes proofs from them as in C91, and gives the hash function the two digests as values
where the proofs need them. -/
def simulate (params : VrfParams) (E : EcGroup G) (ped : Pedersen) (P : PedersenParams) (ms : List Int)
    (r : Int) (pk : Bytes) (y₁ y₂ : Digest) {L : Nat} (a : Fin 2 → Nat) (b : Mask L → Nat)
    (O : Bytes → Digest) (base : G) (es : List G) : Res (View G × (Bytes → Digest)) := do
  let v ← obj params E ped base
  let cm ← Ped.commitWithRand ped ms r
  let inv ← BN.modInverse (cm * BN.ofBytes pk) P.n
  let π := simKey (chalOf params.chal.toNat y₁) (a 0) (a 1)
  let π' ← simApply E base P.gs P.h P.n es inv (chalOf params.chal.toNat y₂) b
  return (⟨base, pk, π, es, π'⟩, program (program O (hashedKey v (pk, π)) y₁)
    (hashedApply v ⟨es, pk, cm, π'⟩) y₂)

/-- The coins of the simulator: an opening, two digests, a hash function and the responses. -/
abbrev Coins (D : Finset Bytes) (params : VrfParams) (E : EcGroup G) (n L : Nat) (C : Type) : Type :=
  C × Fin n × (Digest × Digest × (D → Digest)) × Masks params E n L

/-- The spy of C122: the spy, shown what the simulator makes; the public key is a random power of the
generator `h`. -/
def simSpy (B : Bytes → Digest) (D : Finset Bytes) (params : VrfParams) (E : EcGroup G)
    (ped : Pedersen) (P : PedersenParams) (ms : List Int) (r : Int) (n : Nat) {C : Type}
    (A : VSpy G C) : Spy G (Coins D params E n ms.length C) := fun base z es =>
  sayYes A z.1 (simulate params E ped P ms r (BN.natToBytes (P.h ^ z.2.1.val % P.n).toNat)
    z.2.2.1.1 z.2.2.1.2.1 (fun i => (z.2.2.2.1 i).val) (fun i => (z.2.2.2.2 i).val)
    (graft B D z.2.2.1.2.2) base es)

/-! ### One run -/

section
variable {params : VrfParams} {E : EcGroup G} {ped : Pedersen} {n : Nat} {gs : List Int} {h : Int}

/-- The object. -/
theorem obj_ok (hE : E.Lawful) {kk : Nat} (hk : 1 ≤ kk) (hk' : kk < 31) (hsec : 1 ≤ params.sec)
    (hsec' : params.sec ≤ 2 ^ 30) (hchal : 1 ≤ params.chal) (hchal' : params.chal ≤ 511) (hn : 1 < n)
    (hg : ∀ g ∈ gs, Int.gcd g n = 1) (hh : Int.gcd h n = 1) (hp : Ped.create gs h n kk = .ok ped)
    {base : G} (hb : base ≠ 0) :
    ∃ bb, obj params E ped base = .ok ⟨{ params with baseG := bb }, E, base, ped⟩ ∧
      Made gs h n (⟨{ params with baseG := bb }, E, base, ped⟩ : DyVrf G) := by
  obtain ⟨bb, hbb, hbb'⟩ := EcGroup.Lawful.toBytes_ne hE hb
  have hc : Vrf.create { params with baseG := bb } E ped =
      .ok ⟨{ params with baseG := bb }, E, base, ped⟩ := by
    unfold Vrf.create
    dsimp only
    rw [if_neg (by omega), if_neg (by omega), hbb', Res.ok_bind]
    rfl
  refine ⟨bb, ?_, ?_⟩
  · unfold obj
    rw [hbb, Res.ok_bind, hc]
  · exact ⟨hE, by exact_mod_cast hn, hg, hh, ⟨kk, hk, hk', hp⟩, hc, by
      show params.chal ≤ _
      omega, hsec'⟩

variable {v : DyVrf G}

/-- The public key. -/
def pkOf (gs : List Int) (h : Int) (n : Nat) (K o : Nat) : Bytes :=
  BN.natToBytes (commitment gs h n (List.replicate gs.length (K : Int)) o).toNat

/-- The string hashed for a key proof, from the masks. -/
def keyString (v : DyVrf G) (gs : List Int) (h : Int) (n : Nat) (pk : Bytes) (a : Fin 2 → Nat) : Bytes :=
  block (keyTranscript v.params pk (pkOf gs h n (a 0) (a 1)))

/-- A key proof, from the masks and the digest. -/
def keyProofOf (v : DyVrf G) (K o : Nat) (a : Fin 2 → Nat) (y : Digest) : VrfKeyProof :=
  simKey (chalOf v.params.chal.toNat y) (a 0 + K * chalOf v.params.chal.toNat y)
    (a 1 + o * chalOf v.params.chal.toNat y)

theorem ofBytes_pkOf (hn : 0 < n) (K o : Nat) :
    BN.ofBytes (pkOf gs h n K o) = commitment gs h n (List.replicate gs.length (K : Int)) o := by
  unfold pkOf
  rw [BN.ofBytes_natToBytes, Int.toNat_of_nonneg (commitment_nonneg (by exact_mod_cast hn) _ _)]

theorem toBytes_commitment (hn : 0 < n) (K o : Nat) :
    BN.toBytes (commitment gs h n (List.replicate gs.length (K : Int)) o) = .ok (pkOf gs h n K o) :=
  BN.toBytes_of_nonneg (commitment_nonneg (by exact_mod_cast hn) _ _)

theorem key_run (M : Made gs h n v) (hc : v.params.chal ≤ 511) (H : Hashes) (O : Bytes → Digest)
    (k : Draw v.group) {o : Nat} (ho : o < n) {a : Fin 2 → Nat} (ha : a ∈ Box (keyBounds v n)) :
    generateKeyPair (withSha512 H O) v ⟨k.val, o, a 0, a 1⟩ =
      .ok (pkOf gs h n (k.val + 1) o, ⟨BN.natToBytes (k.val + 1), BN.natToBytes o⟩,
        keyProofOf v (k.val + 1) o a
          (O (keyString v gs h n (pkOf gs h n (k.val + 1) o) a))) := by
  have hn := M.n1
  have hn0 : 0 < n := by omega
  have hn0' : (0 : Int) < n := by exact_mod_cast hn0
  have Gd := M.good
  have hk : v.group.generatePrivateKey k.val = .ok ((k.val + 1 : ℕ) : Int) := by
    rw [Cpa.generatePrivateKey_draw M.lawful]
    unfold Draw.scalar
    push_cast
    rfl
  have ho' : Ctx.randLessThan o (n : Int) = .ok (o : Int) := by
    have := randLessThan_lt (w := o) (b := n) ho
    exact this
  have ha0 := mem_box.1 ha 0
  have ha1 := mem_box.1 ha 1
  have ea : Ctx.randLessThan (a 0) ((v.group.order : Int) * 2 ^ (v.params.chal + v.params.sec).toNat)
      = .ok (a 0 : Int) := by
    have := randLessThan_lt (w := a 0) (b := v.group.order * 2 ^ (v.params.chal + v.params.sec).toNat) ha0
    push_cast at this
    exact this
  have eb : Ctx.randLessThan (a 1) ((n : Int) * 2 ^ (v.params.chal + v.params.sec).toNat)
      = .ok (a 1 : Int) := by
    have := randLessThan_lt (w := a 1) (b := n * 2 ^ (v.params.chal + v.params.sec).toNat) ha1
    push_cast at this
    exact this
  have vk : Valid gs (List.replicate gs.length ((k.val + 1 : ℕ) : Int)) o :=
    Made.replicate_valid gs (by omega) (by omega)
  have vd : Valid gs (List.replicate gs.length (a 0 : Int)) (a 1) :=
    Made.replicate_valid gs (by omega) (by omega)
  have e1 : ∀ c : Nat, (a 0 : Int) + ((k.val + 1 : ℕ) : Int) * c = ((a 0 + (k.val + 1) * c : Nat) : Int) := by
    intro c; push_cast; rfl
  have e2 : ∀ c : Nat, (a 1 : Int) + (o : Int) * c = ((a 1 + o * c : Nat) : Int) := by
    intro c; push_cast; rfl
  unfold generateKeyPair
  simp only [hk, Res.ok_bind, Ped.commit, Gd.n_eq, ho', Gd.gs_eq, Gd.commit vk, Res.pure_eq,
    toBytes_commitment hn0, toBytes_nat, M.shift v.group.order _ (.inl rfl), M.shift n _ (.inl rfl), ea, eb,
    Gd.commit vd, keyChallenge_eq M hc, e1, e2]
  rfl

theorem key_string (M : Made gs h n v) {K o : Nat} (a : Fin 2 → Nat) (y : Digest) :
    hashedKey v (pkOf gs h n K o, keyProofOf v K o a y) =
      some (keyString v gs h n (pkOf gs h n K o) a) := by
  have hn := M.n1
  have hn0 : 0 < n := by omega
  have hn0' : (0 : Int) < n := by exact_mod_cast hn0
  have Gd := M.good
  set c := chalOf v.params.chal.toNat y with hcdef
  have hc1 : (0 : Int) ≤ (c : Int) := by omega
  have vk : Valid gs (List.replicate gs.length (K : Int)) o := Made.replicate_valid gs (by omega) (by omega)
  have vd : Valid gs (List.replicate gs.length (a 0 : Int)) (a 1) :=
    Made.replicate_valid gs (by omega) (by omega)
  have vm : Valid gs (List.replicate gs.length ((a 0 : Int) + K * c)) ((a 1 : Int) + o * c) :=
    Made.replicate_valid gs (by positivity) (by positivity)
  obtain ⟨i, hi, hi0, hrec⟩ := recover hn0'
    (commitment_unit M.gsU M.hU (List.replicate gs.length (K : Int)) o) c
  have hlin := commitment_linear (h := h) (n := n) hc1 vd vk
  rw [replicate_linear, mul_comm (c : Int) K, mul_comm (c : Int) o] at hlin
  have hdummy : keyDummyCommit v (pkOf gs h n K o) (keyProofOf v K o a y) =
      .ok (commitment gs h n (List.replicate gs.length (a 0 : Int)) (a 1)) := by
    unfold keyDummyCommit keyProofOf simKey
    simp only [BN.ofBytes_natToBytes, ← hcdef, Nat.cast_add, Nat.cast_mul, ofBytes_pkOf hn0, Gd.gs_eq,
      Gd.commit vm, Res.ok_bind, Ped.multiply, Ped.add, Gd.n_eq, modExp_ok hc1 hn0'.ne',
      modMul_ok hn0'.ne', Int.toNat_natCast, hi]
    rw [(hrec _ _ hlin).1, commitment_emod]
  unfold hashedKey
  simp only [hdummy]
  rfl

/-- Key proofs are close to simulated ones. -/
theorem key_close (M : Made gs h n v) {K o : Nat} (hK : K < v.group.order) (ho : o < n) (y : Digest) :
    StatClose (Box (keyBounds v n)) (fun a => keyProofOf v K o a y)
      (fun a => simKey (chalOf v.params.chal.toNat y) (a 0) (a 1)) 2 (2 ^ v.params.sec.toNat) := by
  have hq := M.lawful.prime.pos
  obtain ⟨hsec, hchal, -⟩ := M.pos
  set c := chalOf v.params.chal.toNat y with hc
  have hcl : c < 2 ^ v.params.chal.toNat := Nat.mod_lt _ (by positivity)
  have hpos : ∀ i, 0 < keyBounds v n i := by
    intro i
    fin_cases i <;> simp only [keyBounds] <;> (simp; omega)
  have et : (v.params.chal + v.params.sec).toNat = v.params.chal.toNat + v.params.sec.toNat := by omega
  have mask : ∀ x y : Nat, x < y →
      x * c * 2 ^ v.params.sec.toNat ≤ 1 * (y * 2 ^ (v.params.chal + v.params.sec).toNat) := by
    intro x y hxy
    rw [one_mul, et, pow_add, ← mul_assoc]
    exact Nat.mul_le_mul_right _ (Nat.mul_le_mul hxy.le hcl.le)
  have key := close_of_shift (keyBounds v n) ![K * c, o * c] (fun _ => 1) (2 ^ v.params.sec.toNat) hpos
    (by
      intro i
      fin_cases i
      · exact mask K _ hK
      · exact mask o _ ho)
    (fun a => keyProofOf v K o a y) (fun a => simKey c (a 0) (a 1)) (by
      intro a ha _
      rfl)
  simpa using key

/-- A proof of evaluations hashes one string, which does not depend on the hash function. -/
theorem apply_run (M : Made gs h n v) (hc : v.params.chal ≤ 511) (H : Hashes) (pk : Bytes)
    (sk : VrfPrivateKey) (ms : List Int) (hlen : ms.length ≤ gs.length) (es : List G)
    (hes : es.length = ms.length) (cm r : Int) (b : Mask ms.length → Nat)
    (hb : b ∈ Box (applyBounds v n ms.length)) :
    (∀ O π, generateApplyProof (withSha512 H O) v ms es pk sk cm r (drawsOf b) ≠ .ok π) ∨
    ∃ x, (∀ pk' d, x ≠ block (keyTranscript v.params pk' d)) ∧
      (∀ O, generateApplyProof (withSha512 H O) v ms es pk sk cm r (drawsOf b) =
        generateApplyProof (withSha512 H fun _ => O x) v ms es pk sk cm r (drawsOf b)) ∧
      ∀ O π, generateApplyProof (withSha512 H O) v ms es pk sk cm r (drawsOf b) = .ok π →
        hashedApply v ⟨es, pk, cm, π⟩ = some x := by
  have E1 := fun O => generateApplyProof_eq M (withSha512 H O) pk sk ms hlen es hes cm r b hb
  have hn0 : (0 : Int) < n := by have := M.n1; omega
  obtain ⟨d, hd, -⟩ := toBytes_parse (commitment_nonneg hn0
    ((List.range gs.length).map (simZ b)) (b (some none)) : 0 ≤ commitment gs h n _ _)
  simp only [hd, Res.ok_bind] at E1
  rcases ecPoints_cases M.lawful
    ((List.range ms.length).map fun i => simZ b i • es.getD i 0) with ⟨bp, hbp⟩ | ⟨-, hbp⟩
  swap
  · left
    intro O π hO
    rw [E1 O, hbp, Res.err_bind] at hO
    cases hO
  simp only [hbp, Res.ok_bind] at E1
  have key : ∀ O (c : Int), applyChallenge (withSha512 H O) v es pk cm d bp = .ok c ↔
      0 ≤ cm ∧ ∃ x, hashedApply v ⟨es, pk, cm, ⟨d, bp, [], []⟩⟩ = some x ∧
        c = ((chalOf v.params.chal.toNat (O x) : Nat) : Int) := fun O c =>
    applyChallenge_iff (a := ⟨es, pk, cm, ⟨d, bp, [], []⟩⟩) M hc
  have out : ∀ O π, generateApplyProof (withSha512 H O) v ms es pk sk cm r (drawsOf b) = .ok π →
      π.commitDummy = d ∧ π.dummyGs = bp ∧
        ∃ c, applyChallenge (withSha512 H O) v es pk cm d bp = .ok c := by
    intro O π hO
    rw [E1 O] at hO
    simp only [Res.bind_eq_ok, Res.pure_eq, Res.ok.injEq] at hO
    obtain ⟨c, hc, z, -, o, -, rfl⟩ := hO
    exact ⟨rfl, rfl, c, hc⟩
  by_cases hx : 0 ≤ cm ∧ ∃ x, hashedApply v ⟨es, pk, cm, ⟨d, bp, [], []⟩⟩ = some x
  swap
  · left
    intro O π hO
    obtain ⟨-, -, c, hcc⟩ := out O π hO
    obtain ⟨h0, x, hx', -⟩ := (key O c).1 hcc
    exact hx ⟨h0, x, hx'⟩
  obtain ⟨h0, x, hx⟩ := hx
  right
  refine ⟨x, ?_, ?_, ?_⟩
  · intro pk' d' he
    unfold hashedApply at hx
    split at hx
    · simp only [Option.some.injEq] at hx
      rw [← hx] at he
      exact C71_separate _ _ _ _ _ _ _ _ _ (block_inj he).symm
    · cases hx
  · intro O
    rw [E1 O, E1 fun _ => O x, (key O _).2 ⟨h0, x, hx, rfl⟩, (key (fun _ => O x) _).2 ⟨h0, x, hx, rfl⟩]
  · intro O π hO
    obtain ⟨e1, e2, -⟩ := out O π hO
    have : hashedApply v ⟨es, pk, cm, π⟩ = hashedApply v ⟨es, pk, cm, ⟨d, bp, [], []⟩⟩ := by
      unfold hashedApply
      simp only [e1, e2]
    rw [this, hx]

variable [hE : Fact E.Lawful]

/-- The evaluations, as multiples of the generator. -/
theorem apply_good (params : VrfParams) (ped : Pedersen) (ms : List Int) (k t : Draw E) (ob : Bytes)
    (hg : DyPrf.Good (scalars E ms) (fld k)) (zs : Fin ms.length → Draw E) :
    Vrf.apply ⟨params, E, t.point E, ped⟩ ms ⟨BN.natToBytes (k.val + 1), ob⟩ =
      .ok (shown (scalars E ms) 0 (fld k) (fld t) zs) := by
  unfold Vrf.apply
  dsimp only
  rw [BN.ofBytes_natToBytes]
  have e : ((k.val + 1 : ℕ) : Int) = k.scalar := by unfold Draw.scalar; push_cast; rfl
  rw [e, Cs.mapM_ok_iff, List.forall₂_iff_get]
  refine ⟨by simp [shown], fun i h1 h2 => ?_⟩
  have := hg.2 ⟨i, h1⟩
  rw [applyOne_good params ped (t.point E) (by exact this) (fld t) (pt_fld t).symm]
  simp [shown, scalars, fld]

theorem apply_bad (params : VrfParams) (ped : Pedersen) (ms : List Int) (k t : Draw E) (ob : Bytes)
    (hg : ¬ DyPrf.Good (scalars E ms) (fld k)) (σs : List G) :
    Vrf.apply ⟨params, E, t.point E, ped⟩ ms ⟨BN.natToBytes (k.val + 1), ob⟩ ≠ .ok σs := by
  intro hr
  obtain ⟨l, hl⟩ : ∃ l, fld k + scalars E ms l = 0 := by
    by_contra hc
    push Not at hc
    exact hg ⟨fld_ne k, hc⟩
  unfold Vrf.apply at hr
  dsimp only at hr
  rw [BN.ofBytes_natToBytes] at hr
  have e : ((k.val + 1 : ℕ) : Int) = k.scalar := by unfold Draw.scalar; push_cast; rfl
  rw [e, Cs.mapM_ok_iff, List.forall₂_iff_get] at hr
  exact applyOne_bad params ped (t.point E) (by exact hl) _ (hr.2 l.val l.isLt (hr.1 ▸ l.isLt))

theorem prob_false' {α : Type} [Fintype α] {S : α → Prop} [DecidablePred S] (h : ∀ a, ¬ S a) : prob S = 0 := by
  unfold prob
  rw [Finset.filter_false_of_mem fun a _ => h a]
  simp

theorem point_ne (t : Draw E) : t.point E ≠ 0 := by
  rw [← pt_fld]
  exact fun h => fld_ne t (pt_eq_zero.1 h)

theorem average_eq {α β γ : Type} [Fintype α] [Fintype β] [Fintype γ] {S : α → β → Prop}
    {T : α → γ → Prop} (h : ∀ a, prob (S a) = prob (T a)) :
    prob (fun t : α × β => S t.1 t.2) = prob (fun t : γ × α => T t.2 t.1) := by
  rw [← prob_comm T, prob_prod S, prob_prod T, Finset.sum_congr rfl fun a _ => h a]

theorem wrap {α β : Type} [Fintype α] [Fintype β] {S T R : α → β → Prop} {p x : ℚ}
    (e : p = prob fun s : α × β => S s.1 s.2) (hR : ∀ a b, R a b ↔ T a b) (hx : 0 ≤ x)
    (main : ∀ a, |prob (S a) - prob (T a)| ≤ x) [DecidablePred fun s : α × β => R s.1 s.2] :
    |p - prob (fun s : α × β => R s.1 s.2)| ≤ x := by
  have := prob_prod_close hx main
  rw [e, prob_congr fun s : α × β => hR s.1 s.2]
  exact this

theorem two_close {ι κ β γ : Type} [Fintype ι] [DecidableEq ι] [Fintype κ] [DecidableEq κ]
    {B₁ : ι → Nat} {B₂ : κ → Nat} {f g : (ι → Nat) → β} {f' g' : (κ → Nat) → γ} {a b d : Nat}
    (h₁ : StatClose (Box B₁) f g a d) (h₂ : StatClose (Box B₂) f' g' b d) (p₁ : ∀ i, 0 < B₁ i)
    (p₂ : ∀ i, 0 < B₂ i) (hd : 0 < d) (Q : β → γ → Prop) :
    |prob (fun s : ((i : ι) → Fin (B₁ i)) × ((i : κ) → Fin (B₂ i)) =>
        Q (f fun i => (s.1 i).val) (f' fun i => (s.2 i).val)) -
      prob (fun s : ((i : ι) → Fin (B₁ i)) × ((i : κ) → Fin (B₂ i)) =>
        Q (g fun i => (s.1 i).val) (g' fun i => (s.2 i).val))| ≤ (a : ℚ) / d + (b : ℚ) / d := by
  have s1 : |prob (fun s : ((i : ι) → Fin (B₁ i)) × ((i : κ) → Fin (B₂ i)) =>
        Q (f fun i => (s.1 i).val) (f' fun i => (s.2 i).val)) -
      prob (fun s : ((i : ι) → Fin (B₁ i)) × ((i : κ) → Fin (B₂ i)) =>
        Q (g fun i => (s.1 i).val) (f' fun i => (s.2 i).val))| ≤ (a : ℚ) / d := by
    rw [prob_comm fun (x : (i : ι) → Fin (B₁ i)) (z : (i : κ) → Fin (B₂ i)) =>
        Q (f fun i => (x i).val) (f' fun i => (z i).val),
      prob_comm fun (x : (i : ι) → Fin (B₁ i)) (z : (i : κ) → Fin (B₂ i)) =>
        Q (g fun i => (x i).val) (f' fun i => (z i).val)]
    exact prob_prod_close (S := fun (z : (i : κ) → Fin (B₂ i)) (x : (i : ι) → Fin (B₁ i)) =>
        Q (f fun i => (x i).val) (f' fun i => (z i).val))
      (T := fun z x => Q (g fun i => (x i).val) (f' fun i => (z i).val)) (by positivity)
      fun z => h₁.prob p₁ hd fun w => Q w (f' fun i => (z i).val)
  have s2 : |prob (fun s : ((i : ι) → Fin (B₁ i)) × ((i : κ) → Fin (B₂ i)) =>
        Q (g fun i => (s.1 i).val) (f' fun i => (s.2 i).val)) -
      prob (fun s : ((i : ι) → Fin (B₁ i)) × ((i : κ) → Fin (B₂ i)) =>
        Q (g fun i => (s.1 i).val) (g' fun i => (s.2 i).val))| ≤ (b : ℚ) / d :=
    prob_prod_close (S := fun (x : (i : ι) → Fin (B₁ i)) (z : (i : κ) → Fin (B₂ i)) =>
        Q (g fun i => (x i).val) (f' fun i => (z i).val))
      (T := fun x z => Q (g fun i => (x i).val) (g' fun i => (z i).val)) (by positivity)
      fun x => h₂.prob p₂ hd fun w => Q (g fun i => (x i).val) w
  exact (abs_sub_le _ _ _).trans (add_le_add s1 s2)

/-- Both proofs may be simulated. -/
theorem proofs_close {kk : Nat} (hk : 1 ≤ kk) (hk' : kk < 31) (hsec : 1 ≤ params.sec)
    (hsec' : params.sec ≤ 2 ^ 30) (hchal : 1 ≤ params.chal) (hchal' : params.chal ≤ 511) (hn : 1 < n)
    {P : PedersenParams} (hPg : P.gs = gs) (hPh : P.h = h) (hPn : P.n = n)
    (hg : ∀ g ∈ gs, Int.gcd g n = 1) (hh : Int.gcd h n = 1) (hp : Ped.create gs h n kk = .ok ped)
    (ms : List Int) (hlen : ms.length ≤ gs.length) (hms : ∀ m ∈ ms, 0 ≤ m ∧ m < E.order)
    (r : Int) (hr : 0 ≤ r) (hrn : r < n) (H : Hashes) (B : Bytes → Digest) (D : Finset Bytes)
    (hD : Covers H D params E ped ms r n) {C : Type} (A : VSpy G C) (c : C) (t k : Draw E) (o : Fin n)
    (zs : Fin ms.length → Draw E) :
    |prob (fun s : Masks params E n ms.length × (D → Digest) => sayYes A c (do
        let V ← runWith (withSha512 H (graft B D s.2)) params E ped ms r n t k o s.1
        return (V, graft B D s.2))) -
      prob (fun s : (Digest × Digest × (D → Digest)) × Masks params E n ms.length =>
        DyPrf.Good (scalars E ms) (fld k) ∧
        sayYes A c (simulate params E ped P ms r (pkOf gs h n (k.val + 1) o.val) s.1.1 s.1.2.1
          (fun i => (s.2.1 i).val) (fun i => (s.2.2 i).val) (graft B D s.1.2.2) (t.point E)
          (shown (scalars E ms) 0 (fld k) (fld t) zs)))| ≤
      (ms.length + 5 : ℕ) / 2 ^ params.sec.toNat := by
  obtain ⟨bb, hobj, M⟩ := obj_ok (params := params) hE.out hk hk' hsec hsec' hchal hchal' hn hg hh hp
    (point_ne t)
  set v : DyVrf G := ⟨{ params with baseG := bb }, E, t.point E, ped⟩ with hv
  have hn0 : 0 < n := by omega
  have hn0' : (0 : Int) < n := by exact_mod_cast hn0
  have Gd := M.good
  have hgen : E.getRandomGenerator t.val = .ok (t.point E) := by
    have := Cpa.generatePrivateKey_draw hE.out t
    unfold EcGroup.generatePrivateKey at this
    unfold EcGroup.getRandomGenerator
    rw [this]
    rfl
  set K := k.val + 1 with hK
  have hKo : K < E.order := by have := k.isLt; omega
  set pk := pkOf gs h n K o.val with hpk
  set sk : VrfPrivateKey := ⟨BN.natToBytes K, BN.natToBytes o.val⟩ with hsk
  set es := shown (scalars E ms) 0 (fld k) (fld t) zs with hes
  have hmsV : Valid gs ms r := ⟨hlen, fun m hm => (hms m hm).1, hr⟩
  set cm := commitment gs h n ms r with hcm
  have hcmd : Ped.commitWithRand ped ms r = .ok cm := Gd.commit hmsV
  have boxK : ∀ a : Masks params E n ms.length, (fun i => (a.1 i).val) ∈ Box (keyBounds v n) :=
    fun a => mem_box.2 fun i => (a.1 i).isLt
  have boxA : ∀ a : Masks params E n ms.length, (fun i => (a.2 i).val) ∈
      Box (applyBounds v n ms.length) := fun a => mem_box.2 fun i => (a.2 i).isLt
  set T : (Fin 2 → Nat) → Bytes := fun a => keyString v gs h n pk a with hT
  by_cases hgood : DyPrf.Good (scalars E ms) (fld k)
  swap
  · rw [prob_false' (S := fun s : Masks params E n ms.length × (D → Digest) => _) (fun s hs => ?_),
      prob_false' (S := fun s : (Digest × Digest × (D → Digest)) × Masks params E n ms.length => _)
        (fun s hs => hgood hs.1)]
    · rw [sub_self, abs_zero]
      positivity
    · unfold runWith run at hs
      rw [hgen, Res.ok_bind, hobj, Res.ok_bind,
        key_run M hchal' H _ k o.isLt (boxK s.1), Res.ok_bind] at hs
      dsimp only at hs
      cases hap : Vrf.apply v ms sk with
      | ok σs => exact apply_bad _ ped ms k t _ hgood σs hap
      | _ =>
        rw [hap] at hs
        exact hs
  have hap : Vrf.apply v ms sk = .ok es := apply_good _ ped ms k t _ hgood zs
  have hrun : ∀ (O : Bytes → Digest) (a : Masks params E n ms.length),
      runWith (withSha512 H O) params E ped ms r n t k o a =
        (generateApplyProof (withSha512 H O) v ms es pk sk cm r (drawsOf fun i => (a.2 i).val) >>=
          fun π' => Res.ok ⟨t.point E, pk, keyProofOf v K o.val (fun i => (a.1 i).val)
            (O (T fun i => (a.1 i).val)), es, π'⟩) := by
    intro O a
    unfold runWith run
    rw [hgen, Res.ok_bind, hobj, Res.ok_bind, key_run M hchal' H O k o.isLt (boxK a), Res.ok_bind]
    dsimp only
    rw [hap, Res.ok_bind, hcmd, Res.ok_bind]
    rfl
  -- what the spy says about a key proof and a proof of evaluations
  let Q : (Digest × Digest × (D → Digest)) → VrfKeyProof → Res VrfApplyProof → Prop := fun y π r2 =>
    sayYes A c (r2 >>= fun π' => Res.ok (⟨t.point E, pk, π, es, π'⟩,
      program (program (graft B D y.2.2) (hashedKey v (pk, π)) y.1)
        (hashedApply v ⟨es, pk, cm, π'⟩) y.2.1))
  let gen : Digest → (Mask ms.length → Nat) → Res VrfApplyProof := fun y b =>
    generateApplyProof (withSha512 H fun _ => y) v ms es pk sk cm r (drawsOf b)
  have heslen : es.length = ms.length := by simp [hes, shown]
  have step1 : ∀ a : Masks params E n ms.length,
      prob (fun f : D → Digest => sayYes A c (do
        let V ← runWith (withSha512 H (graft B D f)) params E ped ms r n t k o a
        return (V, graft B D f))) =
      prob (fun y : Digest × Digest × (D → Digest) =>
        Q y (keyProofOf v K o.val (fun i => (a.1 i).val) y.1) (gen y.2.1 fun i => (a.2 i).val)) := by
    intro a
    have no : (∀ O π, generateApplyProof (withSha512 H O) v ms es pk sk cm r
        (drawsOf fun i => (a.2 i).val) ≠ .ok π) →
        prob (fun f : D → Digest => sayYes A c (do
          let V ← runWith (withSha512 H (graft B D f)) params E ped ms r n t k o a
          return (V, graft B D f))) =
        prob (fun y : Digest × Digest × (D → Digest) =>
          Q y (keyProofOf v K o.val (fun i => (a.1 i).val) y.1) (gen y.2.1 fun i => (a.2 i).val)) := by
      intro hno
      rw [prob_false' (fun f hf => ?_), prob_false' (fun y hy => ?_)]
      · simp only [Q, gen] at hy
        cases hr2 : generateApplyProof (withSha512 H fun _ => y.2.1) v ms es pk sk cm r
            (drawsOf fun i => (a.2 i).val) with
        | ok π => exact hno _ _ hr2
        | _ => rw [hr2] at hy; exact hy
      · rw [hrun] at hf
        cases hr2 : generateApplyProof (withSha512 H (graft B D f)) v ms es pk sk cm r
            (drawsOf fun i => (a.2 i).val) with
        | ok π => exact hno _ _ hr2
        | _ => rw [hr2] at hf; exact hf
    rcases apply_run M hchal' H pk sk ms hlen es heslen cm r _ (boxA a) with hno | ⟨x, hx, hO, hstr⟩
    · exact no hno
    by_cases hsome : ∃ O π, generateApplyProof (withSha512 H O) v ms es pk sk cm r
        (drawsOf fun i => (a.2 i).val) = .ok π
    swap
    · push Not at hsome
      exact no hsome
    obtain ⟨O₀, π₀, h₀⟩ := hsome
    have hV := hrun O₀ a
    rw [h₀, Res.ok_bind] at hV
    have hT1 : T (fun i => (a.1 i).val) ∈ D :=
      hD O₀ t k o a _ cm _ hV hcmd ⟨v, hobj, .inl (key_string M _ _)⟩
    have hT2 : x ∈ D := hD O₀ t k o a _ cm _ hV hcmd ⟨v, hobj, .inr (hstr O₀ π₀ h₀)⟩
    have hne : T (fun i => (a.1 i).val) ≠ x := fun he => hx _ _ he.symm
    rw [← resample2 hT1 hT2 hne B fun O => sayYes A c (do
        let V ← runWith (withSha512 H O) params E ped ms r n t k o a
        return (V, O))]
    refine prob_congr fun y => ?_
    set O := Function.update (Function.update (graft B D y.2.2) (T fun i => (a.1 i).val) y.1) x y.2.1
      with hOdef
    have o1 : O (T fun i => (a.1 i).val) = y.1 := by
      rw [hOdef, Function.update_of_ne hne, Function.update_self]
    have o2 : O x = y.2.1 := by rw [hOdef, Function.update_self]
    rw [hrun, o1, hO, o2]
    simp only [Q, gen]
    cases hr2 : generateApplyProof (withSha512 H fun _ => y.2.1) v ms es pk sk cm r
        (drawsOf fun i => (a.2 i).val) with
    | ok π =>
      simp only [Res.ok_bind, Res.pure_eq, sayYes]
      rw [key_string M, hstr _ _ hr2]
      rfl
    | _ => rfl
  have hpos1 : ∀ i, 0 < kB params E n i := by
    have := hE.out.prime.pos
    intro i
    fin_cases i <;> simp only [kB] <;> (simp; omega)
  have hpos2 : ∀ i, 0 < aB params E n ms.length i := by
    have := hE.out.prime.pos
    intro i
    rcases i with _ | _ | i <;> simp only [aB] <;> positivity
  -- the inverse
  have hpk' : BN.ofBytes pk = commitment gs h n (List.replicate gs.length (K : Int)) o.val :=
    ofBytes_pkOf hn0 _ _
  have hu : Int.gcd (cm * BN.ofBytes pk) n = 1 := by
    rw [hpk']
    exact Int.isCoprime_iff_gcd_eq_one.1 (IsCoprime.mul_left
      (Int.isCoprime_iff_gcd_eq_one.2 (commitment_unit M.gsU M.hU _ _))
      (Int.isCoprime_iff_gcd_eq_one.2 (commitment_unit M.gsU M.hU _ _)))
  obtain ⟨hinv, -, -⟩ := BN.inv_spec hn0' hu
  have hkp : IsKeyPair gs h n v.group pk sk := by
    refine ⟨?_, ?_, ?_, ?_, ?_⟩ <;> simp only [hsk, BN.ofBytes_natToBytes]
    · omega
    · exact_mod_cast hKo
    · omega
    · exact_mod_cast o.isLt
    · exact hpk'
  have hev : List.Forall₂ (IsEval v.group v.base (BN.ofBytes sk.key)) ms es := by
    have hnd : ∀ m ∈ ms, ¬ (v.group.order : Int) ∣ m + BN.ofBytes sk.key := by
      intro m hm hd
      have := (C57_apply M sk ms).2 ⟨m, hm, hd⟩
      rw [hap] at this
      cases this
    obtain ⟨σs, h1, h2⟩ := (C57_apply M sk ms).1 hnd
    rw [hap] at h1
    cases h1
    exact h2
  have hsim : ∀ (y : Digest × Digest × (D → Digest)) (a : Masks params E n ms.length),
      sayYes A c (simulate params E ped P ms r pk y.1 y.2.1 (fun i => (a.1 i).val)
        (fun i => (a.2 i).val) (graft B D y.2.2) (t.point E) es) ↔
      Q y (simKey (chalOf params.chal.toNat y.1) (a.1 0).val (a.1 1).val)
        (simApply E (t.point E) gs h n es (BN.inv (cm * BN.ofBytes pk) n)
          (chalOf params.chal.toNat y.2.1) fun i => (a.2 i).val) := by
    intro y a
    unfold simulate
    rw [hobj, Res.ok_bind, hcmd, Res.ok_bind, hPn, BN.modInverse_ok hn0' hu, Res.ok_bind, hPg, hPh]
    rfl
  have main : ∀ y : Digest × Digest × (D → Digest),
      |prob (fun a : Masks params E n ms.length =>
        Q y (keyProofOf v K o.val (fun i => (a.1 i).val) y.1) (gen y.2.1 fun i => (a.2 i).val)) -
      prob (fun a : Masks params E n ms.length =>
        Q y (simKey (chalOf params.chal.toNat y.1) (a.1 0).val (a.1 1).val)
          (simApply E (t.point E) gs h n es (BN.inv (cm * BN.ofBytes pk) n)
            (chalOf params.chal.toNat y.2.1) fun i => (a.2 i).val))| ≤
      (ms.length + 5 : ℕ) / 2 ^ params.sec.toNat := by
    intro y
    have hcl := C91_apply M pk sk hkp ms hlen hms es hev r hr hrn _ hinv
      (chalOf params.chal.toNat y.2.1) (Nat.mod_lt _ (by positivity))
      (fun _ => withSha512 H fun _ => y.2.1) (by
        intro b hb π hπ
        have hes0 : ∃ x, hashedApply v ⟨es, pk, cm, π⟩ = some x := by
          rcases apply_run M hchal' H pk sk ms hlen es heslen cm r b hb with hno | ⟨x, -, -, hstr⟩
          · exact absurd hπ (hno _ _)
          · exact ⟨x, hstr _ _ hπ⟩
        obtain ⟨x, hx⟩ := hes0
        exact (applyChallenge_iff (a := ⟨es, pk, cm, π⟩) M hchal').2
          ⟨commitment_nonneg hn0' _ _, x, hx, rfl⟩)
    have := two_close (B₁ := kB params E n) (B₂ := aB params E n ms.length)
      (key_close M hKo o.isLt y.1) hcl hpos1 hpos2 (by positivity) (Q y)
    refine this.trans_eq ?_
    push_cast
    rw [← add_div]
    congr 1
    ring
  have e1 : prob (fun s : Masks params E n ms.length × (D → Digest) => sayYes A c (do
        let V ← runWith (withSha512 H (graft B D s.2)) params E ped ms r n t k o s.1
        return (V, graft B D s.2))) =
      prob (fun s : (Digest × Digest × (D → Digest)) × Masks params E n ms.length =>
        Q s.1 (keyProofOf v K o.val (fun i => (s.2.1 i).val) s.1.1) (gen s.1.2.1 fun i => (s.2.2 i).val)) := by
    exact average_eq (S := fun (a : Masks params E n ms.length) (f : D → Digest) => sayYes A c (do
        let V ← runWith (withSha512 H (graft B D f)) params E ped ms r n t k o a
        return (V, graft B D f)))
      (T := fun (a : Masks params E n ms.length) (y : Digest × Digest × (D → Digest)) =>
        Q y (keyProofOf v K o.val (fun i => (a.1 i).val) y.1) (gen y.2.1 fun i => (a.2 i).val)) step1
  have hx : (0 : ℚ) ≤ (ms.length + 5 : ℕ) / 2 ^ params.sec.toNat := by positivity
  exact wrap (S := fun y (a : Masks params E n ms.length) =>
      Q y (keyProofOf v K o.val (fun i => (a.1 i).val) y.1) (gen y.2.1 fun i => (a.2 i).val))
    (T := fun y (a : Masks params E n ms.length) =>
      Q y (simKey (chalOf params.chal.toNat y.1) (a.1 0).val (a.1 1).val)
        (simApply E (t.point E) gs h n es (BN.inv (cm * BN.ofBytes pk) n)
          (chalOf params.chal.toNat y.2.1) fun i => (a.2 i).val))
    (R := fun y (a : Masks params E n ms.length) => DyPrf.Good (scalars E ms) (fld k) ∧
        sayYes A c (simulate params E ped P ms r pk y.1 y.2.1
          (fun i => (a.1 i).val) (fun i => (a.2 i).val) (graft B D y.2.2) (t.point E) es))
    e1 (fun y a => (and_iff_right hgood).trans (hsim y a)) hx main

/-- A run hashes two strings, which do not depend on the hash function. -/
theorem run_strings {kk : Nat} (hk : 1 ≤ kk) (hk' : kk < 31) (hsec : 1 ≤ params.sec)
    (hsec' : params.sec ≤ 2 ^ 30) (hchal : 1 ≤ params.chal) (hchal' : params.chal ≤ 511) (hn : 1 < n)
    (hg : ∀ g ∈ gs, Int.gcd g n = 1) (hh : Int.gcd h n = 1) (hp : Ped.create gs h n kk = .ok ped)
    (ms : List Int) (hlen : ms.length ≤ gs.length) (hms : ∀ m ∈ ms, 0 ≤ m ∧ m < E.order)
    (r : Int) (hr : 0 ≤ r) (H : Hashes) (t k : Draw E) (o : Fin n) (a : Masks params E n ms.length) :
    ∃ x₁ x₂ : Bytes, ∀ (O : Bytes → Digest) V cm x,
      runWith (withSha512 H O) params E ped ms r n t k o a = .ok V →
      Ped.commitWithRand ped ms r = .ok cm → Hashed params E ped cm V x → x = x₁ ∨ x = x₂ := by
  obtain ⟨bb, hobj, M⟩ := obj_ok (params := params) hE.out hk hk' hsec hsec' hchal hchal' hn hg hh hp
    (point_ne t)
  set v : DyVrf G := ⟨{ params with baseG := bb }, E, t.point E, ped⟩ with hv
  have Gd := M.good
  have hgen : E.getRandomGenerator t.val = .ok (t.point E) := by
    have := Cpa.generatePrivateKey_draw hE.out t
    unfold EcGroup.generatePrivateKey at this
    unfold EcGroup.getRandomGenerator
    rw [this]
    rfl
  have boxK : (fun i => (a.1 i).val) ∈ Box (keyBounds v n) := mem_box.2 fun i => (a.1 i).isLt
  have boxA : (fun i => (a.2 i).val) ∈ Box (applyBounds v n ms.length) := mem_box.2 fun i => (a.2 i).isLt
  have hmsV : Valid gs ms r := ⟨hlen, fun m hm => (hms m hm).1, hr⟩
  have hcmd : Ped.commitWithRand ped ms r = .ok (commitment gs h n ms r) := Gd.commit hmsV
  obtain ⟨zs⟩ : Nonempty (Fin ms.length → Draw E) := inferInstance
  have inv : ∀ (O : Bytes → Digest) V,
      runWith (withSha512 H O) params E ped ms r n t k o a = .ok V →
      V.base = t.point E ∧ V.pk = pkOf gs h n (k.val + 1) o.val ∧
      (∃ y, V.keyProof = keyProofOf v (k.val + 1) o.val (fun i => (a.1 i).val) y) ∧
      V.evals = shown (scalars E ms) 0 (fld k) (fld t) zs ∧
      generateApplyProof (withSha512 H O) v ms (shown (scalars E ms) 0 (fld k) (fld t) zs)
        (pkOf gs h n (k.val + 1) o.val) ⟨BN.natToBytes (k.val + 1), BN.natToBytes o.val⟩
        (commitment gs h n ms r) r (drawsOf fun i => (a.2 i).val) = .ok V.proof := by
    intro O V hV
    unfold runWith run at hV
    rw [hgen, Res.ok_bind, hobj, Res.ok_bind, key_run M hchal' H O k o.isLt boxK, Res.ok_bind] at hV
    dsimp only at hV
    by_cases hgood : DyPrf.Good (scalars E ms) (fld k)
    swap
    · rw [Res.bind_eq_ok] at hV
      obtain ⟨σs, h1, -⟩ := hV
      exact absurd h1 (apply_bad _ ped ms k t _ hgood σs)
    rw [apply_good _ ped ms k t _ hgood zs, Res.ok_bind, hcmd, Res.ok_bind, Res.bind_eq_ok] at hV
    obtain ⟨π, h1, h2⟩ := hV
    cases h2
    exact ⟨rfl, rfl, ⟨_, rfl⟩, rfl, h1⟩
  rcases apply_run M hchal' H (pkOf gs h n (k.val + 1) o.val)
    ⟨BN.natToBytes (k.val + 1), BN.natToBytes o.val⟩ ms hlen
    (shown (scalars E ms) 0 (fld k) (fld t) zs) (by simp [shown]) (commitment gs h n ms r) r _ boxA with
    hno | ⟨x, -, -, hstr⟩
  · refine ⟨[], [], fun O V cm x hV _ _ => ?_⟩
    exact absurd (inv O V hV).2.2.2.2 (hno _ _)
  · refine ⟨keyString v gs h n (pkOf gs h n (k.val + 1) o.val) fun i => (a.1 i).val, x,
      fun O V cm z hV hcm hz => ?_⟩
    obtain ⟨h1, h2, ⟨y, h3⟩, h4, h5⟩ := inv O V hV
    rw [hcmd] at hcm
    cases hcm
    obtain ⟨v', hv', hz⟩ := hz
    rw [h1, hobj] at hv'
    cases hv'
    rcases hz with hz | hz
    · rw [h2, h3, key_string M] at hz
      cases hz
      exact .inl rfl
    · rw [h4, h2, hstr _ _ h5] at hz
      cases hz
      exact .inr rfl

/-- There is a finite set that has every string hashed in a run. -/
theorem covers_exists {kk : Nat} (hk : 1 ≤ kk) (hk' : kk < 31) (hsec : 1 ≤ params.sec)
    (hsec' : params.sec ≤ 2 ^ 30) (hchal : 1 ≤ params.chal) (hchal' : params.chal ≤ 511) (hn : 1 < n)
    (hg : ∀ g ∈ gs, Int.gcd g n = 1) (hh : Int.gcd h n = 1) (hp : Ped.create gs h n kk = .ok ped)
    (ms : List Int) (hlen : ms.length ≤ gs.length) (hms : ∀ m ∈ ms, 0 ≤ m ∧ m < E.order)
    (r : Int) (hr : 0 ≤ r) (H : Hashes) : ∃ D, Covers H D params E ped ms r n := by
  choose f₁ f₂ hf using fun s : Draw E × Draw E × Fin n × Masks params E n ms.length =>
    run_strings hk hk' hsec hsec' hchal hchal' hn hg hh hp ms hlen hms r hr H s.1 s.2.1 s.2.2.1 s.2.2.2
  refine ⟨Finset.univ.image f₁ ∪ Finset.univ.image f₂, ?_⟩
  intro O t k o a V cm x h1 h2 h3
  rw [Finset.mem_union]
  rcases hf (t, k, o, a) O V cm x h1 h2 h3 with e | e
  · exact .inl (Finset.mem_image.2 ⟨_, Finset.mem_univ _, e.symm⟩)
  · exact .inr (Finset.mem_image.2 ⟨_, Finset.mem_univ _, e.symm⟩)

/-- The public key is a power of `h`. -/
theorem pk_power {k : Nat} {w : Fin k → Nat} (hn : 1 < n) (K : Nat) :
    ∃ s : Nat, ∀ o : Nat, pkOf (List.ofFn fun i => h ^ w i % (n : Int)) h n K o =
      BN.natToBytes (h ^ (s + o) % (n : Int)).toNat := by
  have hn' : (1 : Int) < n := by exact_mod_cast hn
  have hl : (List.replicate (List.ofFn fun i => h ^ w i % (n : Int)).length (K : Int)).length ≤ k := by simp
  have hm : ∀ m ∈ List.replicate (List.ofFn fun i => h ^ w i % (n : Int)).length (K : Int), 0 ≤ m := by
    intro m hm
    rw [List.eq_of_mem_replicate hm]
    omega
  obtain ⟨s, hs, -⟩ := commit_exp (h := h) hn' w hl hm (r := 0) le_rfl
  refine ⟨s, fun o => ?_⟩
  obtain ⟨e, he, hc⟩ := commit_exp (h := h) hn' w hl hm (r := (o : Int)) (by omega)
  have : e = s + o := by omega
  unfold pkOf
  rw [hc, this]

theorem close2 {α β γ : Type} [Fintype α] [Fintype β] [Fintype γ] {S : α → β → Prop} {T : α → γ → Prop}
    [∀ a b, Decidable (S a b)] [∀ a b, Decidable (T a b)] {x : ℚ} (hx : 0 ≤ x)
    (h : ∀ a, |prob (S a) - prob (T a)| ≤ x) :
    |prob (fun t : α × β => S t.1 t.2) - prob (fun t : α × γ => T t.1 t.2)| ≤ x := by
  rw [prob_prod S, prob_prod T, ← sub_div, ← Finset.sum_sub_distrib, abs_div,
    abs_of_nonneg (by positivity : (0 : ℚ) ≤ Fintype.card α)]
  apply div_le_of_le_mul₀ (by positivity) hx
  refine (Finset.abs_sum_le_sum_abs _ _).trans ((Finset.sum_le_sum fun a _ => h a).trans_eq ?_)
  rw [Finset.sum_const, Finset.card_univ, nsmul_eq_mul, mul_comm]

/-- Move the opening to the end. -/
def moveLast (C T K O Y : Type) : ((C × T × K × O) × Y) ≃ ((C × T × K × Y) × O) where
  toFun s := ((s.1.1, s.1.2.1, s.1.2.2.1, s.2), s.1.2.2.2)
  invFun s := ((s.1.1, s.1.2.1, s.1.2.2.1, s.2), s.1.2.2.2)
  left_inv _ := rfl
  right_inv _ := rfl

/-- The order of the game of C122. -/
def toGame (C T K O Y M : Type) : (K × T × C × O × Y × M) ≃ ((C × T × K × Y × M) × O) where
  toFun s := ((s.2.2.1, s.2.1, s.1, s.2.2.2.2.1, s.2.2.2.2.2), s.2.2.2.1)
  invFun s := (s.1.2.2.1, s.1.2.1, s.1.1, s.2, s.1.2.2.2.1, s.1.2.2.2.2)
  left_inv _ := rfl
  right_inv _ := rfl

/-- The opening hides the key. -/
theorem pk_close {U : Type} [Fintype U] {L J : Nat} (hn : 1 < n) (hJ : J * L ≤ n)
    (hL : h ^ L ≡ 1 [ZMOD n]) (Φ : U → Bytes → Prop) [∀ u b, Decidable (Φ u b)] (pk : U → Nat → Bytes)
    (hpk : ∀ u, ∃ s : Nat, ∀ o, pk u o = BN.natToBytes (h ^ (s + o) % (n : Int)).toNat) :
    |prob (fun s : U × Fin n => Φ s.1 (pk s.1 s.2.val)) -
      prob (fun s : U × Fin n => Φ s.1 (BN.natToBytes (h ^ s.2.val % (n : Int)).toNat))| ≤
      ((n - J * L : ℕ) : ℚ) / n := by
  refine close2 (S := fun u (o : Fin n) => Φ u (pk u o.val))
    (T := fun u (o : Fin n) => Φ u (BN.natToBytes (h ^ o.val % (n : Int)).toNat)) (by positivity)
    fun u => ?_
  obtain ⟨s, hs⟩ := hpk u
  have := shift_close (n := n) (by omega) hJ (fun x => Φ u (BN.natToBytes (h ^ x % (n : Int)).toNat))
    (fun x => by
      have e : h ^ (x + L) % (n : Int) = h ^ x % (n : Int) := by
        have := hL.mul_left (h ^ x)
        rw [← pow_add, mul_one] at this
        exact this
      rw [e]) s
  rw [prob_congr fun o : Fin n => by rw [hs]]
  exact this

end

/-- **C132**.  Take Pedersen parameters as `GenerateParameters` makes them from two safe primes.  For
distinct messages, what a spy says in the real game, where it sees the base, the public key, the
evaluations and both proofs and may ask a random hash function everywhere, differs from what it says
about random points, with everything else made by the simulator, by at most: the bound of C122 for the
spy together with the simulator; `(number of messages + 5) / 2 ^ security`; and `(p + q - 1) / (p q)`. -/
theorem C132_pseudorandom {p q k kk : Nat} [NeZero (p * q)] (h : Safe2 p q) (hk : 1 ≤ kk) (hk' : kk < 31)
    (x : (ZMod (p * q))ˣ) (w : Fin k → Fin (p * q / 4)) {P : PedersenParams}
    (hP : generateParameters (p * q : ℕ) (x.val.val : Int) (List.ofFn fun i => (w i).val) = .ok P)
    {ped : Pedersen} (hped : Ped.create P.gs P.h P.n kk = .ok ped) (E : EcGroup G) (hE : E.Lawful)
    {params : VrfParams} (hsec : 1 ≤ params.sec) (hsec' : params.sec ≤ 2 ^ 30) (hchal : 1 ≤ params.chal)
    (hchal' : params.chal ≤ 511) (ms : List Int) (hlen : ms.length ≤ k)
    (hms : ∀ m ∈ ms, 0 ≤ m ∧ m < E.order) (hdist : ms.Nodup) (r : Int) (hr : 0 ≤ r)
    (hrn : r < (p * q : ℕ)) (H : Hashes) (B : Bytes → Digest) (D : Finset Bytes)
    (hD : Covers H D params E ped ms r (p * q)) {C : Type} [Fintype C] [Nonempty C] (A : VSpy G C) :
    |realVrf H B D params E ped ms r (p * q) A -
      idealGame E ms.length (simSpy B D params E ped P ms r (p * q) A)| ≤
      ∑ j : Fin ms.length, (|ddhiAdv E (ms.length + 1)
          (prfAlg E (scalars E ms) (simSpy B D params E ped P ms r (p * q) A) j)| +
        2 / (E.order - 1 : ℕ)) +
      (ms.length + 5 : ℕ) / 2 ^ params.sec.toNat + ((p + q - 1 : ℕ) : ℚ) / (p * q : ℕ) := by
  have hfact : Fact E.Lawful := ⟨hE⟩
  have hp2 := h.bigL
  have hq2 := h.bigR
  have hn4 : 4 ≤ p * q := by nlinarith
  obtain ⟨e1, e2, e3⟩ := generated hn4 x.val.val (fun i => (w i).val) (fun i => (w i).isLt) hP
  have hx : Int.gcd (x.val.val : Int) (p * q : ℕ) = 1 := by
    have := ZMod.val_coe_unit_coprime x
    rw [Int.gcd_natCast_natCast]
    exact this
  set g : Int := (x.val.val : Int) ^ 2 % ((p * q : ℕ) : Int) with hg
  have hgu : Int.gcd g (p * q : ℕ) = 1 := gcd_pow_emod hx 2
  have hPg : P.gs = List.ofFn fun i => g ^ (w i).val % ((p * q : ℕ) : Int) := e1
  have zs : Fin ms.length → Draw E := fun _ => Classical.arbitrary _
  have hper : g ^ (p / 2 * (q / 2)) ≡ 1 [ZMOD (p * q : ℕ)] := square_period h x
  have hped' : Ped.create (List.ofFn fun i => g ^ (w i).val % ((p * q : ℕ) : Int)) g (p * q : ℕ) kk =
      .ok ped := by
    rw [e2, e3, hPg] at hped
    exact hped
  have h2p : p = 2 * (p / 2) + 1 := by
    have := h.left.1.odd_of_ne_two (by omega)
    obtain ⟨a, ha⟩ := this
    omega
  have h2q : q = 2 * (q / 2) + 1 := by
    have := h.right.1.odd_of_ne_two (by omega)
    obtain ⟨a, ha⟩ := this
    omega
  have hfour : 4 * (p / 2 * (q / 2)) ≤ p * q ∧ p * q - 4 * (p / 2 * (q / 2)) = p + q - 1 := by
    generalize p / 2 = a at *
    generalize q / 2 = b at *
    subst h2p
    subst h2q
    have : (2 * a + 1) * (2 * b + 1) = 4 * (a * b) + 2 * a + 2 * b + 1 := by ring
    omega
  let U := C × Draw E × Draw E × (Digest × Digest × (D → Digest)) × Masks params E (p * q) ms.length
  let Ψ : U → Bytes → Prop := fun u pk => DyPrf.Good (scalars E ms) (fld u.2.2.1) ∧
    sayYes A u.1 (simulate params E ped P ms r pk u.2.2.2.1.1 u.2.2.2.1.2.1
      (fun i => (u.2.2.2.2.1 i).val) (fun i => (u.2.2.2.2.2 i).val) (graft B D u.2.2.2.1.2.2)
      (u.2.1.point E) (shown (scalars E ms) 0 (fld u.2.2.1) (fld u.2.1) zs))
  let pkf : U → Nat → Bytes := fun u o =>
    pkOf (List.ofFn fun i => g ^ (w i).val % ((p * q : ℕ) : Int)) g (p * q) (u.2.2.1.val + 1) o
  let hyb1 : ℚ := prob fun s : U × Fin (p * q) => Ψ s.1 (pkf s.1 s.2.val)
  let hyb2 : ℚ := prob fun s : U × Fin (p * q) =>
    Ψ s.1 (BN.natToBytes (g ^ s.2.val % ((p * q : ℕ) : Int)).toNat)
  have d1 : |realVrf H B D params E ped ms r (p * q) A - hyb1| ≤
      (ms.length + 5 : ℕ) / 2 ^ params.sec.toNat := by
    have e : hyb1 = prob fun s : (C × Draw E × Draw E × Fin (p * q)) ×
        ((Digest × Digest × (D → Digest)) × Masks params E (p * q) ms.length) =>
        Ψ (s.1.1, s.1.2.1, s.1.2.2.1, s.2) (pkf (s.1.1, s.1.2.1, s.1.2.2.1, s.2) s.1.2.2.2.val) :=
      (prob_equiv (moveLast C (Draw E) (Draw E) (Fin (p * q))
        ((Digest × Digest × (D → Digest)) × Masks params E (p * q) ms.length))
        fun s : U × Fin (p * q) => Ψ s.1 (pkf s.1 s.2.val)).symm
    rw [e]
    exact close2 (S := fun (a : C × Draw E × Draw E × Fin (p * q))
        (s : Masks params E (p * q) ms.length × (D → Digest)) => sayYes A a.1 (do
          let V ← runWith (withSha512 H (graft B D s.2)) params E ped ms r (p * q) a.2.1 a.2.2.1 a.2.2.2
            s.1
          return (V, graft B D s.2)))
      (T := fun (a : C × Draw E × Draw E × Fin (p * q))
        (s : (Digest × Digest × (D → Digest)) × Masks params E (p * q) ms.length) =>
        Ψ (a.1, a.2.1, a.2.2.1, s) (pkf (a.1, a.2.1, a.2.2.1, s) a.2.2.2.val)) (by positivity)
      fun a => proofs_close hk hk' hsec hsec' hchal hchal' (by omega) hPg e2 e3
        (fun y hy => by
          obtain ⟨i, rfl⟩ := List.mem_ofFn.1 hy
          exact gcd_pow_emod hgu _) hgu hped' ms (by simpa using hlen) hms r hr hrn H B D hD A a.1 a.2.1
        a.2.2.1 a.2.2.2 zs
  have d2 : |hyb1 - hyb2| ≤ ((p + q - 1 : ℕ) : ℚ) / (p * q : ℕ) := by
    rw [← hfour.2]
    exact pk_close (by omega) hfour.1 hper Ψ pkf fun u => pk_power (by omega) _
  have d3 : hyb2 = realGame E params ped [] ms (simSpy B D params E ped P ms r (p * q) A) := by
    have e : hyb2 = prob fun s : Draw E × Draw E × C × Fin (p * q) × (Digest × Digest × (D → Digest)) ×
        Masks params E (p * q) ms.length =>
        Ψ (s.2.2.1, s.2.1, s.1, s.2.2.2.2.1, s.2.2.2.2.2)
          (BN.natToBytes (g ^ s.2.2.2.1.val % ((p * q : ℕ) : Int)).toNat) :=
      (prob_equiv (toGame C (Draw E) (Draw E) (Fin (p * q)) (Digest × Digest × (D → Digest))
        (Masks params E (p * q) ms.length)) fun s : U × Fin (p * q) =>
        Ψ s.1 (BN.natToBytes (g ^ s.2.val % ((p * q : ℕ) : Int)).toNat)).symm
    rw [e]
    unfold realGame
    refine prob_congr fun s => ?_
    rw [realView_spec (simSpy B D params E ped P ms r (p * q) A) params ped [] ms s.1 s.2.1 zs s.2.2]
    unfold simSpy
    rw [e2, e3]
  have hm : Nonempty (Masks params E (p * q) ms.length) := by
    have := hE.prime.pos
    have hb : 0 < p * q := by omega
    refine ⟨fun i => ⟨0, ?_⟩, fun i => ⟨0, ?_⟩⟩
    · fin_cases i <;> simp only [kB] <;> (simp; omega)
    · rcases i with _ | _ | i <;> simp only [aB] <;> positivity
  have hf : Nonempty (Fin (p * q)) := ⟨⟨0, by omega⟩⟩
  have d4 := C122_pseudorandom E hE params ped [] ms (fun i j hij => by
    have hi := hms (ms.get i) (List.get_mem _ _)
    have hj := hms (ms.get j) (List.get_mem _ _)
    have : ms.get i = ms.get j := by
      unfold Int.ModEq at hij
      rwa [Int.emod_eq_of_lt hi.1 hi.2, Int.emod_eq_of_lt hj.1 hj.2] at hij
    exact List.Nodup.injective_get hdist this) (simSpy B D params E ped P ms r (p * q) A)
  rw [← d3] at d4
  have t1 := abs_sub_le (realVrf H B D params E ped ms r (p * q) A) hyb1
    (idealGame E ms.length (simSpy B D params E ped P ms r (p * q) A))
  have t2 := abs_sub_le hyb1 hyb2
    (idealGame E ms.length (simSpy B D params E ped P ms r (p * q) A))
  linarith only [t1, t2, d1, d2, d4]

/-! ### A run -/

def smallParams : VrfParams := ⟨8, 3, [], [], ⟨[77], [[64], [16]], [4]⟩⟩

def smallPed : Res (PedersenParams × Pedersen) := do
  let P ← generateParameters 77 2 [3, 2]
  let ped ← Ped.create P.gs P.h P.n 2
  return (P, ped)

/-- A run with a hash function that is constant, and the two verifications. -/
def smallRun (H : Hashes) : Res (Bytes × List (ZMod 11)) := do
  let (_, ped) ← smallPed
  let V ← run (withSha512 H fun _ _ => 85) smallParams toyEc ped [3, 5] 12 6 ⟨3, 68, 20, 150⟩
    ⟨90, fun i => 70 + i, 123⟩
  let v ← obj smallParams toyEc ped V.base
  verifyKeyProof (withSha512 H fun _ _ => 85) v V.pk V.keyProof
  let cm ← Ped.commitWithRand ped [3, 5] 12
  verifyApplyProof (withSha512 H fun _ _ => 85) v V.evals V.pk cm V.proof
  return (V.pk, V.evals)

theorem small_run : smallRun ⟨id, id, id, fun _ b => b⟩ = .ok ([53], [1, 2]) := by
  decide +kernel

theorem small_ped : ∃ rs, generateParameters (7 * 11 : ℕ) 2 [3, 2] = .ok ⟨[64, 16], 4, 77, rs⟩ := by
  exact ⟨[3, 2], by decide +kernel⟩

theorem small_create : (match Ped.create [64, 16] 4 77 2 with | .ok _ => true | _ => false) = true := by
  decide +kernel

/-- The hypotheses of `C132_pseudorandom` are met for `p = 7`, `q = 11` and two messages. -/
theorem C132_reached (H : Hashes) : ∃ (x : (ZMod (7 * 11))ˣ) (w : Fin 2 → Fin (7 * 11 / 4))
    (P : PedersenParams) (ped : Pedersen) (D : Finset Bytes), Safe2 7 11 ∧ toyEc.Lawful ∧
    generateParameters (7 * 11 : ℕ) (x.val.val : Int) (List.ofFn fun i => (w i).val) = .ok P ∧
    Ped.create P.gs P.h P.n 2 = .ok ped ∧
    (∀ m ∈ [3, 5], 0 ≤ m ∧ m < toyEc.order) ∧ [(3 : Int), 5].Nodup ∧
    Covers H D smallParams toyEc ped [3, 5] 12 (7 * 11) := by
  obtain ⟨rs, hP⟩ := small_ped
  have hc := small_create
  cases hped : Ped.create [64, 16] 4 77 2 with
  | err e => rw [hped] at hc; cases hc
  | crash => rw [hped] at hc; cases hc
  | ub => rw [hped] at hc; cases hc
  | ok ped =>
  have hfact : Fact toyEc.Lawful := ⟨toyEc_lawful⟩
  obtain ⟨D, hD⟩ := covers_exists (params := smallParams) (E := toyEc) (ped := ped) (n := 7 * 11)
    (gs := [64, 16]) (h := 4) (kk := 2) (by decide) (by decide) (by decide) (by decide) (by decide)
    (by decide) (by decide) (by decide) (by decide) hped [3, 5] (by decide) (by decide) 12 (by decide) H
  exact ⟨ZMod.unitOfCoprime 2 (by decide), ![3, 2], ⟨[64, 16], 4, 77, rs⟩, ped, D, VrfUnique.safe_7_11, toyEc_lawful,
    hP, hped, by decide, by decide, hD⟩

end PJC.VrfPrf
