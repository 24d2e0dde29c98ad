import Verif.Props.HashUniform
import Verif.Props.ClientView
/-
C139: what the parties learn in a run over P-224, P-256 or P-384 when SHA-256 is a random function.

C104 to C107 assume that hashing to the curve is a random function to the points with an even
y-coordinate.  Here only SHA-256 is random: hashing to the curve is the loop of the code, and the group is
the curve of C111.

Specification.  `randomSha` is SHA-256 given by a random table on the strings of `D`, which has all
identifiers and all numbers below the field prime.  `shaGroup` is the curve with that SHA-256;
`hashValues` are the hash values of all identifiers.  `clientRun` is the client's message of a run of the
protocol, `viewRun` all that the client receives.  A question `S` is asked about the hash values of all
identifiers and the messages; it does not see SHA-256 itself.  The draws are the party's key, its
Paillier draws and the table.
-/
set_option linter.unusedSectionVars false
namespace PJC.RandomSha
open PJC PJC.Prob PJC.Oracle PJC.Curve PJC.Loops PJC.Uniform PJC.HashUniform PJC.Protocol PJC.Props Finset

variable {c : Curve} {q : Nat} {gx gy : Int} [Fact q.Prime]

/-- Whether the y-coordinate is odd. -/
def oddY (c : Curve) (P : (c.W q).Point) : Bool :=
  match c.ofPoint P with
  | .aff _ y => decide (y % 2 = 1)
  | .inf => false

/-- The group element of a point with an even y-coordinate. -/
noncomputable def pt (z : hashPoints c q) : (c.W q).Point := (c.toPoint? q (.aff z.1.1 z.1.2)).getD 0

theorem pt_spec (h : Named c q gx gy) (z : hashPoints c q) :
    c.toPoint? q (.aff z.1.1 z.1.2) = some (pt z) ∧ c.ofPoint (pt z) = .aff z.1.1 z.1.2 ∧ pt z ≠ 0 := by
  have hc := h.certified
  obtain ⟨P, h1, h2, h3⟩ := toPoint_of_onCurve hc.proper hc.smooth (mem_filter.1 z.2).2.1
  have : pt z = P := by rw [pt, h1]; rfl
  rw [this]
  exact ⟨h1, h2, h3⟩

theorem pt_inj (h : Named c q gx gy) : Function.Injective (pt (c := c) (q := q)) := by
  intro z z' e
  have h1 := (pt_spec h z).2.1
  rw [e, (pt_spec h z').2.1] at h1
  obtain ⟨e1, e2⟩ := RawPoint.aff.inj h1
  exact Subtype.ext (Prod.ext (by exact_mod_cast e1.symm) (by exact_mod_cast e2.symm))

theorem odd_pt (h : Named c q gx gy) (z : hashPoints c q) : oddY c (pt z) = false := by
  rw [oddY, (pt_spec h z).2.1]
  have := (mem_filter.1 z.2).2.2.1
  simp only [decide_eq_false_iff_not]
  omega

theorem odd_neg (h : Named c q gx gy) {P : (c.W q).Point} (hP : P ≠ 0) : oddY c (-P) = !oddY c P := by
  have hc := h.certified
  have : NeZero q := ⟨hc.proper.prime.ne_zero⟩
  have hodd : q % 2 = 1 := (hc.proper.prime.eq_two_or_odd).resolve_left hc.proper.odd
  cases P with
  | zero => exact absurd rfl hP
  | some x y hn =>
    have hy : y ≠ 0 := by
      rintro rfl
      have he := (WeierstrassCurve.Affine.equation_iff' _ _).1 hn.1
      apply hc.no_root x
      linear_combination -he
    rw [WeierstrassCurve.Affine.Point.neg_some]
    have e : (c.W q).negY x y = -y := by
      simp [WeierstrassCurve.Affine.negY]
    have hv : ((c.W q).negY x y).val = q - y.val := by rw [e, ZMod.neg_val, if_neg hy]
    have hlt := ZMod.val_lt y
    have hv0 : y.val ≠ 0 := fun h => hy ((ZMod.val_eq_zero y).1 h)
    simp only [oddY, ofPoint, hv]
    by_cases hpar : y.val % 2 = 1
    · have a1 : ¬ ((q - y.val : Nat) : Int) % 2 = 1 := by omega
      have a2 : ((y.val : Nat) : Int) % 2 = 1 := by omega
      simp only [a1, a2, decide_true, decide_false, Bool.not_true]
    · have a1 : ((q - y.val : Nat) : Int) % 2 = 1 := by omega
      have a2 : ¬ ((y.val : Nat) : Int) % 2 = 1 := by omega
      simp only [a1, a2, decide_true, decide_false, Bool.not_false]

theorem even_pt (h : Named c q gx gy) {P : (c.W q).Point} (hP : P ≠ 0) (he : oddY c P = false) :
    ∃ z : hashPoints c q, pt z = P := by
  have hc := h.certified
  have : NeZero q := ⟨hc.proper.prime.ne_zero⟩
  cases P with
  | zero => exact absurd rfl hP
  | some x y hn =>
    have hy : y ≠ 0 := by
      rintro rfl
      have he := (WeierstrassCurve.Affine.equation_iff' _ _).1 hn.1
      apply hc.no_root x
      linear_combination -he
    have hv0 : y.val ≠ 0 := fun h => hy ((ZMod.val_eq_zero y).1 h)
    have hon := ofPoint_onCurve hc.proper x y hn
    simp only [oddY, ofPoint, decide_eq_false_iff_not] at he
    refine ⟨⟨(x.val, y.val), mem_filter.2 ⟨mem_product.2 ⟨mem_range.2 (ZMod.val_lt x),
      mem_range.2 (ZMod.val_lt y)⟩, hon, by omega, hv0⟩⟩, ?_⟩
    have := c.toPoint_ofPoint (.some x y hn)
    rw [pt]
    simp only [ofPoint] at this
    rw [this]
    rfl

theorem signed_pt (h : Named c q gx gy) {P : (c.W q).Point} (hP : P ≠ 0) :
    ∃ z : hashPoints c q, signed (oddY c) P P = pt z := by
  unfold signed
  by_cases ho : oddY c P
  · rw [if_pos ho]
    obtain ⟨z, hz⟩ := even_pt h (neg_ne_zero.2 hP) (by rw [odd_neg h hP, ho]; rfl)
    exact ⟨z, hz.symm⟩
  · rw [if_neg ho]
    obtain ⟨z, hz⟩ := even_pt h hP (by simpa using ho)
    exact ⟨z, hz.symm⟩

theorem signed_eq_iff (h : Named c q gx gy) {P : (c.W q).Point} (z : hashPoints c q) :
    signed (oddY c) P P = pt z ↔ P = pt z ∨ P = -pt z := by
  have hz := (pt_spec h z).2.2
  have he := odd_pt h z
  unfold signed
  constructor
  · intro e
    split at e
    · right; rw [← e, neg_neg]
    · left; exact e
  · rintro (rfl | rfl)
    · rw [he]; rfl
    · rw [odd_neg h hz, he]; simp

theorem point_surj {G : Type} [AddCommGroup G] [DecidableEq G] {E : EcGroup G} (hE : E.Lawful)
    (hcard : Nat.card G = E.order) {P : G} (hP : P ≠ 0) : ∃ r : Draw E, r.point E = P := by
  classical
  have : Finite G := Nat.finite_of_card_ne_zero (by rw [hcard]; exact hE.prime.ne_zero)
  have : Fintype G := Fintype.ofFinite G
  let f : Draw E → {P : G // P ≠ 0} := fun r => ⟨r.point E, r.point_ne hE⟩
  have hf : Function.Bijective f := by
    rw [Fintype.bijective_iff_injective_and_card]
    refine ⟨fun a b e => Draw.point_inj hE (congrArg Subtype.val e), ?_⟩
    rw [Fintype.card_fin, Fintype.card_subtype_compl, ← Nat.card_eq_fintype_card, hcard]
    simp
  obtain ⟨r, hr⟩ := hf.2 ⟨P, hP⟩
  exact ⟨r, congrArg Subtype.val hr⟩

open scoped Classical in
/-- A random point, with the sign that makes the y-coordinate even, is uniform. -/
theorem prob_signed (h : Named c q gx gy) {E : EcGroup (c.W q).Point} (hE : E.Lawful) (ho : E.order = c.order)
    (z : hashPoints c q) :
    prob (fun r : Draw E => signed (oddY c) (r.point E) (r.point E) = pt z) = 1 / (hashPoints c q).card := by
  have hc := h.certified
  have hz := (pt_spec h z).2.2
  have hcard : Nat.card (c.W q).Point = E.order := hc.card.trans ho.symm
  obtain ⟨r1, h1⟩ := point_surj hE hcard hz
  obtain ⟨r2, h2⟩ := point_surj hE hcard (neg_ne_zero.2 hz)
  have hne : r1 ≠ r2 := by
    rintro rfl
    have e := odd_neg h hz
    rw [← h2, h1] at e
    cases hh : oddY c (pt z) <;> rw [hh] at e <;> cases e
  have hset : (univ.filter fun r : Draw E => signed (oddY c) (r.point E) (r.point E) = pt z) = {r1, r2} := by
    ext r
    simp only [mem_filter, mem_univ, true_and, signed_eq_iff h, mem_insert, mem_singleton]
    constructor
    · rintro (e | e)
      · exact Or.inl (Draw.point_inj hE (e.trans h1.symm))
      · exact Or.inr (Draw.point_inj hE (e.trans h2.symm))
    · rintro (rfl | rfl)
      · exact Or.inl h1
      · exact Or.inr h2
  unfold prob
  rw [hset, card_pair hne, Fintype.card_fin, ho]
  have hh := C138_half h
  have : c.order - 1 = 2 * (hashPoints c q).card := by omega
  rw [this]
  push_cast
  have : ((hashPoints c q).card : ℚ) ≠ 0 := by
    have : 0 < (hashPoints c q).card := card_pos.2 ⟨_, z.2⟩
    positivity
  field_simp

open scoped Classical in
theorem prob_hashes (h : Named c q gx gy) {E : EcGroup (c.W q).Point} (hE : E.Lawful) (ho : E.order = c.order)
    {N : Nat} (Q : (Fin N → (c.W q).Point) → Prop) :
    prob (fun r : Fin N → Draw E => Q (hashes E (oddY c) r)) =
      (univ.filter fun z : Fin N → hashPoints c q => Q fun i => pt (z i)).card /
        ((hashPoints c q).card : ℚ) ^ N := by
  have e : ∀ r : Fin N → Draw E, Q (hashes E (oddY c) r) ↔
      ∃ z ∈ univ.filter (fun z : Fin N → hashPoints c q => Q fun i => pt (z i)),
        ∀ i, signed (oddY c) ((r i).point E) ((r i).point E) = pt (z i) := by
    intro r
    have hz := fun i => signed_pt h ((r i).point_ne hE)
    choose z hz using hz
    constructor
    · intro hq
      refine ⟨z, mem_filter.2 ⟨mem_univ _, ?_⟩, hz⟩
      have : (fun i => pt (z i)) = hashes E (oddY c) r := funext fun i => (hz i).symm
      rwa [this]
    · rintro ⟨z', hq, hz'⟩
      have : (fun i => pt (z' i)) = hashes E (oddY c) r := funext fun i => (hz' i).symm
      rw [← this]
      exact (mem_filter.1 hq).2
  rw [prob_congr e]
  refine Eq.trans (by convert rfl) ((Uniform.prob_sum
    (univ.filter (fun z : Fin N → hashPoints c q => Q fun i => pt (z i)))
    (fun z (r : Fin N → Draw E) => ∀ i, signed (oddY c) ((r i).point E) ((r i).point E) = pt (z i)) ?_).trans ?_)
  · intro r z z' h1 h2
    funext i
    exact pt_inj h ((h1 i).symm.trans (h2 i))
  · have : ∀ z : Fin N → hashPoints c q, prob (fun r : Fin N → Draw E =>
        ∀ i, signed (oddY c) ((r i).point E) ((r i).point E) = pt (z i)) =
        1 / ((hashPoints c q).card : ℚ) ^ N := by
      intro z
      have := prob_pi (ι := Fin N) (α := fun _ => Draw E) fun i r =>
        signed (oddY c) (r.point E) (r.point E) = pt (z i)
      refine Eq.trans (by convert rfl) (this.trans ?_)
      rw [prod_congr rfl fun i _ => prob_signed h hE ho (z i), prod_const, card_univ, Fintype.card_fin,
        one_div_pow]
    rw [sum_congr rfl fun z _ => this z, sum_const, nsmul_eq_mul]
    ring

/-! ### From random points to a random SHA-256 -/

theorem hashLoop_ok {c : Curve} {sqrt : BigNum → BigNum → Res BigNum} {oracle : Bytes → Res BigNum} :
    ∀ {k : Nat} {x : BigNum} {R : RawPoint}, c.hashLoop sqrt oracle k x = some (.ok R) →
      ∃ x', c.hashInternal sqrt x' = .ok R
  | 0, _, _, e => by cases e
  | k + 1, x, R, e => by
    simp only [hashLoop] at e
    split at e
    · next P hP =>
      obtain rfl := Res.ok.inj (Option.some.inj e)
      exact ⟨x, hP⟩
    · cases e
    · cases e
    · split at e
      · exact hashLoop_ok e
      · cases e
      · cases e
      · cases e

theorem hashToCurve_ok (h : c.Proper q) {sqrt : BigNum → BigNum → Res BigNum} (hs : SqrtOk sqrt q)
    {oracle : Bytes → Res BigNum} {k : Nat} {m : Bytes} {R : RawPoint}
    (e : c.hashToCurve sqrt oracle k m = some (.ok R)) : ∃ z : hashPoints c q, R = .aff z.1.1 z.1.2 := by
  simp only [hashToCurve] at e
  split at e
  · obtain ⟨x, hx⟩ := hashLoop_ok e
    have hq0 : (0 : Int) < q := by exact_mod_cast h.prime.pos
    rcases h.hashInternal_spec hs x with ⟨y, hy, hon, he, hne⟩ | ⟨he, -⟩
    · have hb := (onCurve_iff c _ y).1 hon
      rw [h.hp] at hb
      obtain ⟨a1, a2, b1, b2, -⟩ := hb
      obtain ⟨v, hv⟩ := Int.eq_ofNat_of_zero_le a1
      obtain ⟨y, rfl⟩ := Int.eq_ofNat_of_zero_le b1
      rw [hv] at a2 hy hon
      refine ⟨⟨(v, y), mem_filter.2 ⟨mem_product.2 ⟨mem_range.2 (by exact_mod_cast a2),
        mem_range.2 (by exact_mod_cast b2)⟩, hon, by omega, by omega⟩⟩, ?_⟩
      rw [hy] at hx
      exact (Res.ok.inj hx).symm
    · rw [he] at hx
      cases hx
  · cases e
  · cases e
  · cases e

variable (c q gx gy) in
/-- The curve with the given SHA-256 function; hashing to it gives up after 128 rounds. -/
noncomputable def shaGroup (H : Hashes) (sqrt : BigNum → BigNum → Res BigNum)
    (sswu : Bytes → Bytes → Res (c.W q).Point) (sha : Bytes → Bytes) : EcGroup (c.W q).Point :=
  c.toEcGroup q (c.basePoint q gx gy) { H with sha256 := sha } sqrt 128 sswu

/-- The hash value of a string (0 if hashing fails). -/
def hashValue {G : Type} [Zero G] (E : EcGroup G) (m : Bytes) : G :=
  match E.hashSha256 m with
  | .ok P => P
  | _ => 0

theorem shaGroup_lawful (h : Named c q gx gy) (H : Hashes) (sqrt : BigNum → BigNum → Res BigNum)
    (sswu : Bytes → Bytes → Res (c.W q).Point) (sha : Bytes → Bytes) :
    (shaGroup c q gx gy H sqrt sswu sha).Lawful := C111_lawful h _ _ _ _

theorem shaGroup_hash (h : Named c q gx gy) {sqrt : BigNum → BigNum → Res BigNum} (hs : SqrtOk sqrt q)
    (H : Hashes) (sswu : Bytes → Bytes → Res (c.W q).Point) (sha : Bytes → Bytes) (m : Bytes)
    (P : (c.W q).Point) : (shaGroup c q gx gy H sqrt sswu sha).hashSha256 m = .ok P ↔
      ∃ z : hashPoints c q, P = pt z ∧
        c.hashSha256 { H with sha256 := sha } sqrt 128 m = some (.ok (.aff z.1.1 z.1.2)) := by
  show c.liftHash q (c.hashSha256 { H with sha256 := sha } sqrt 128 m) = .ok P ↔ _
  constructor
  · intro e
    cases hh : c.hashSha256 { H with sha256 := sha } sqrt 128 m with
    | none => rw [hh] at e; cases e
    | some r =>
      rw [hh] at e
      cases r with
      | ok R =>
        obtain ⟨z, rfl⟩ := hashToCurve_ok h.certified.proper hs hh
        refine ⟨z, ?_, rfl⟩
        simp only [liftHash, (pt_spec h z).1] at e
        exact (Res.ok.inj e).symm
      | err e' => cases e
      | crash => cases e
      | ub => cases e
  · rintro ⟨z, rfl, e⟩
    rw [e]
    simp only [liftHash, (pt_spec h z).1]

/-- All strings have a hash value. -/
def AllHashed {G : Type} {N : Nat} (E : EcGroup G) (ids : Fin N → Bytes) : Prop :=
  ∀ i, ∃ P, E.hashSha256 (ids i) = .ok P

open scoped Classical in
/-- A question about the hash values, and coins, is answered as it is about random points. -/
theorem transfer (h : Named c q gx gy) {sqrt : BigNum → BigNum → Res BigNum} (hs : SqrtOk sqrt q)
    (H : Hashes) (sswu : Bytes → Bytes → Res (c.W q).Point) (B : Bytes → Bytes) {N : Nat} (hN : N ≤ 2 ^ 55)
    (ids : Fin N → Bytes) (hids : Function.Injective ids) (D : Finset Bytes) (hm : ∀ i, ids i ∈ D)
    (hD : ∀ v < q, BN.natToBytes v ∈ D) (B₁ : Bytes → Blocks (Ctx.iterCount 256 c.p) 32)
    {E : EcGroup (c.W q).Point} (hE : E.Lawful) (ho : E.order = c.order) {Ω : Type} [Fintype Ω]
    (Q : Ω → (Fin N → (c.W q).Point) → Prop) :
    |prob (fun t : Ω × (D → Blocks (Ctx.iterCount 256 c.p) 32) =>
        AllHashed (shaGroup c q gx gy H sqrt sswu (blockHash B (graft B₁ D t.2))) ids ∧
        Q t.1 fun i => hashValue (shaGroup c q gx gy H sqrt sswu (blockHash B (graft B₁ D t.2))) (ids i)) -
      prob (fun t : Ω × (Fin N → Draw E) => Q t.1 (hashes E (oddY c) t.2))| ≤ N / 2 ^ 126 := by
  rw [prob_prod (fun (ω : Ω) (f : D → Blocks (Ctx.iterCount 256 c.p) 32) =>
        AllHashed (shaGroup c q gx gy H sqrt sswu (blockHash B (graft B₁ D f))) ids ∧
        Q ω fun i => hashValue (shaGroup c q gx gy H sqrt sswu (blockHash B (graft B₁ D f))) (ids i)),
    prob_prod (fun (ω : Ω) (r : Fin N → Draw E) => Q ω (hashes E (oddY c) r)),
    ← sub_div, ← sum_sub_distrib, abs_div, Nat.abs_cast]
  apply div_le_of_le_mul₀ (by positivity) (by positivity)
  refine (abs_sum_le_sum_abs _ _).trans ((sum_le_sum (g := fun _ => (N : ℚ) / 2 ^ 126) fun ω _ => ?_).trans
    (by rw [sum_const, card_univ, nsmul_eq_mul, mul_comm]))
  rw [prob_hashes h hE ho (Q ω)]
  refine le_trans (le_of_eq ?_) (C138_named h hs B H hN ids hids D hm hD B₁ (fun _ _ _ => 0) (fun _ _ _ => 0)
    (univ.filter fun z : Fin N → hashPoints c q => Q ω fun i => pt (z i))).1
  congr 2
  refine Eq.trans ?_ (Eq.trans (prob_congr
    (S := fun f : D → Blocks (Ctx.iterCount 256 c.p) 32 =>
      AllHashed (shaGroup c q gx gy H sqrt sswu (blockHash B (graft B₁ D f))) ids ∧
        Q ω fun i => hashValue (shaGroup c q gx gy H sqrt sswu (blockHash B (graft B₁ D f))) (ids i))
    (T := fun f : D → Blocks (Ctx.iterCount 256 c.p) 32 =>
      ∃ z ∈ univ.filter (fun z : Fin N → hashPoints c q => Q ω fun i => pt (z i)), ∀ i,
        c.hashSha256 { H with sha256 := blockHash B (graft B₁ D f) } sqrt 128 (ids i) =
          some (.ok (.aff (z i).1.1 (z i).1.2))) ?_) ?_)
  · convert rfl
  · intro f
    constructor
    · rintro ⟨hall, hq⟩
      choose P hP using hall
      choose z hz using fun i => (shaGroup_hash h hs H sswu _ (ids i) (P i)).1 (hP i)
      refine ⟨z, mem_filter.2 ⟨mem_univ _, ?_⟩, fun i => (hz i).2⟩
      have : (fun i => hashValue (shaGroup c q gx gy H sqrt sswu (blockHash B (graft B₁ D f))) (ids i)) =
          fun i => pt (z i) := by
        funext i
        rw [hashValue, hP i]
        exact (hz i).1
      rwa [this] at hq
    · rintro ⟨z, hz, he⟩
      have hP : ∀ i, (shaGroup c q gx gy H sqrt sswu (blockHash B (graft B₁ D f))).hashSha256 (ids i) =
          .ok (pt (z i)) := fun i => (shaGroup_hash h hs H sswu _ (ids i) _).2 ⟨z i, rfl, he i⟩
      refine ⟨fun i => ⟨_, hP i⟩, ?_⟩
      have : (fun i => hashValue (shaGroup c q gx gy H sqrt sswu (blockHash B (graft B₁ D f))) (ids i)) =
          fun i => pt (z i) := by
        funext i
        rw [hashValue, hP i]
      rw [this]
      exact (mem_filter.1 hz).2
  · convert rfl

/-! ### Runs over a group with any hash to the curve -/

section
variable {G : Type} [AddCommGroup G] [DecidableEq G]

/-- The client's message in a run over the group `E`, with the key words `ws` and `wc`. -/
def clientRun (E : EcGroup G) (clientIds serverIds : List Bytes) (vals : List Int) (p q : Nat)
    (cfg cfg' : ExpCfg) (r1 : ServerRand) (k1 : ClientRand) (ws wc : Nat) : Option ClientRoundOne :=
  match Client.init cfg (.ok E) clientIds vals p q wc with
  | .ok c => (firstRound c (Server.init cfg' (.ok E) serverIds) { r1 with keyWord := ws } k1).map Prod.snd
  | _ => none

/-- All that the client receives in a run over the group `E`. -/
def viewRun (E : EcGroup G) (clientIds serverIds : List Bytes) (vals : List Int) (p q : Nat)
    (cfg cfg' : ExpCfg) (r1 r2 : ServerRand) (k1 : ClientRand) (wc : Nat) (d : Nat × Nat) (ws : Nat) :
    Option (List ServerMsg × List ServerMsg) :=
  match Client.init cfg (.ok E) clientIds vals p q wc with
  | .ok c => (firstRound c (Server.init cfg' (.ok E) serverIds) { r1 with keyWord := ws } k1).map fun x =>
      (((Server.init cfg' (.ok E) serverIds).handle { r1 with keyWord := ws } accept .start).sent,
        reply x.1 (r2.withDraws d) x.2)
  | _ => none

theorem cipher_run {E : EcGroup G} (hE : E.Lawful) {N : Nat} {ids : Fin N → Bytes} {H : Fin N → G}
    (hh : ∀ i, E.hashSha256 (ids i) = .ok (H i)) (hH : ∀ i, H i ≠ 0) (w : Draw E)
    {K : EcCipher G} (h1 : K.group = E) (h2 : K.privateKey = w.scalar) (h3 : K.hashType = .sha256) :
    (∀ i, K.encrypt (ids i) = .ok (encode E (w.scalar • H i))) ∧
    (∀ P : G, P ≠ 0 → K.reEncrypt (encode E P) = .ok (encode E (w.scalar • P))) := by
  have enc : ∀ P : G, P ≠ 0 → E.toBytesCompressed (w.scalar • P) =
      .ok (encode E (w.scalar • P)) := fun P hP => (toBytes_encode hE (hE.zsmul_ne w.not_dvd hP)).1
  constructor
  · intro i
    simp only [EcCipher.encrypt, EcCipher.hashToTheCurveInternal, h3, h1, hh,
      Res.ok_bind, EcCipher.encryptPoint, h2, enc _ (hH i)]
  · intro P hP
    simp only [EcCipher.reEncrypt, h1, (toBytes_encode hE hP).2, Res.ok_bind, EcCipher.encryptPoint, h2,
      enc _ hP]

theorem serverLoop_run {E : EcGroup G} {K : EcCipher G} {N : Nat} {ids : Fin N → Bytes} {e : Fin N → G}
    (hc : ∀ i, K.encrypt (ids i) = .ok (encode E (e i))) (l : List (Fin N)) :
    Server.encryptLoop K (l.map ids) = .ok (l.map fun i => ⟨encode E (e i), []⟩) := by
  induction l with
  | nil => rfl
  | cons i l ih => simp only [List.map_cons, Server.encryptLoop, hc, ih, Res.ok_bind, Res.pure_eq]

theorem serverRun_eq {E : EcGroup G} (hE : E.Lawful) {N : Nat} {ids : Fin N → Bytes} {H : Fin N → G}
    (hh : ∀ i, E.hashSha256 (ids i) = .ok (H i)) (hH : ∀ i, H i ≠ 0) (own : List (Fin N)) (cfg : ExpCfg)
    (r1 : ServerRand) (w : Draw E) :
    ((Server.init cfg (.ok E) (own.map ids)).handle { r1 with keyWord := w.val } accept .start).sent =
      firstMessage E own fun i => w.scalar • H i := by
  obtain ⟨K, hK, k1, k2, k3⟩ := createWithNewKey_draw hE w
  have hl := serverLoop_run (cipher_run hE hh hH w k1 k2 k3).1
  simp only [Server.handle, Server.init, Server.encryptSet, hK, hl, firstMessage,
    Bool.false_eq_true, if_false]

theorem clientRun_eq {E : EcGroup G} (hE : E.Lawful) {N : Nat} {ids : Fin N → Bytes} {H : Fin N → G}
    (hh : ∀ i, E.hashSha256 (ids i) = .ok (H i)) (hH : ∀ i, H i ≠ 0) (own els : List (Fin N))
    (vals : List Int) {p q : Nat} (hk : GoodPrimes p q) (hlen : vals.length = els.length)
    (hvals : ∀ v ∈ vals, 0 ≤ v ∧ v < ((p * q : Nat) : Int) ^ 2) (cfg cfg' : ExpCfg)
    (r1 : ServerRand) (k1 : ClientRand) (hd : ∀ i, 0 ≤ (k1.draws i).1 ∧ 0 ≤ (k1.draws i).2)
    {sk : PrivatePaillier} (hsk : PrivatePaillier.new cfg p q 2 = .ok sk) (ws wc : Draw E) :
    clientRun E (els.map ids) (own.map ids) vals p q cfg cfg' r1 k1 ws.val wc.val =
      some (clientMessage E (p * q) k1.sort own els (ciphertexts sk vals k1.draws) ws
        fun i => wc.scalar • H i) := by
  obtain ⟨Kc, hKc, c1, c2, c3⟩ := createWithNewKey_draw hE wc
  obtain ⟨Ks, hKs, k1', k2, k3⟩ := createWithNewKey_draw hE ws
  have hl := serverLoop_run (cipher_run hE hh hH ws k1' k2 k3).1
  obtain ⟨hcc, hcr⟩ := cipher_run hE hh hH wc c1 c2 c3
  have a1 := encryptLoop_oracle (K := Kc) (sk := sk) (E := E) (ids := ids)
    (e := fun i => wc.scalar • H i) hcc
    (draws := k1.draws) (vals := vals) (fun v hv i => ciphertext_ok hk hsk (hvals v hv).1
      (hvals v hv).2 (hd i)) els 0 (by omega)
  have a2 := reEncryptLoop_oracle (K := Kc) (E := E) hcr
    (e := fun i => ws.scalar • H i) (fun i => hE.zsmul_ne ws.not_dvd (hH i)) own
  have epk : BN.toBytes ((p : Int) * q) = .ok (BN.natToBytes (p * q)) := by
    have : (p : Int) * q = ((p * q : Nat) : Int) := by push_cast; ring
    rw [this, BN.toBytes_of_nonneg (by positivity), Int.toNat_natCast]
  have hcomm : ∀ i, wc.scalar • ws.scalar • H i = ws.scalar • wc.scalar • H i := fun i => smul_comm _ _ _
  simp only [List.drop_zero, zero_add] at a1
  simp [clientRun, Client.init, hKc, Res.value, firstRound, Client.startProtocol, accept,
    Server.handle, Server.init, Server.encryptSet, hKs, hl, Client.handle, Client.reEncryptSet,
    hsk, epk, a1, a2, clientMessage, ciphertexts, hcomm]

theorem viewRun_eq {E : EcGroup G} (hE : E.Lawful) {N : Nat} {ids : Fin N → Bytes} {H : Fin N → G}
    (hids : Function.Injective ids) (hh : ∀ i, E.hashSha256 (ids i) = .ok (H i)) (hH : ∀ i, H i ≠ 0)
    (hinj : Function.Injective H) (own els : List (Fin N))
    (hnd : els.Nodup) (vals : List Int) {p q : Nat} (hk : GoodPrimes p q)
    (hlen : vals.length = els.length)
    (hvals : ∀ v ∈ vals, 0 ≤ v ∧ v < ((p * q : Nat) : Int) ^ 2) (cfg cfg' : ExpCfg)
    (r1 r2 : ServerRand) (hr2 : r2.Ok) (k1 : ClientRand) (hk1 : k1.Ok) {sk : PrivatePaillier}
    (hsk : PrivatePaillier.new cfg p q 2 = .ok sk) (wc ws : Draw E) {d : Nat × Nat}
    (hd : d ∈ PaillierDraws (p * q)) :
    viewRun E (els.map ids) (own.map ids) vals p q cfg cfg' r1 r2 k1 wc.val d ws.val =
      some (firstMessage E own fun i => ws.scalar • H i,
        answer (p * q) (commonEntries sk own els vals k1.draws) d) := by
  have setup : Setup E (els.map ids) vals (own.map ids) p q := by
    refine ⟨hE, ?_, ?_, by simpa using hlen, hvals, hk.safe_p, hk.safe_q, hk.gen_p, hk.gen_q,
      hk.two_lt_p, hk.two_lt_q, hk.ne⟩
    · intro a ha
      rw [← List.map_append] at ha
      obtain ⟨i, -, rfl⟩ := List.mem_map.1 ha
      exact ⟨_, hh i, hH i⟩
    · intro a ha b hb hab
      rw [← List.map_append] at ha hb
      obtain ⟨i, -, rfl⟩ := List.mem_map.1 ha
      obtain ⟨j, -, rfl⟩ := List.mem_map.1 hb
      rw [hh, hh] at hab
      rw [hinj (Res.ok.inj hab)]
  obtain ⟨Kc, -, hinit⟩ := Client.init_ok hE cfg (els.map ids) vals p q wc.val
  obtain ⟨s1, m, sk', T0, hf, hsk', ht1, ht2, ht3, ht4, -, hrep⟩ :=
    messages_spec setup (hnd.map hids) cfg cfg' wc.val _ hinit { r1 with keyWord := ws.val } k1 hk1
  rw [hsk] at hsk'
  cases hsk'
  simp only [PaillierDraws, Finset.mem_product, Finset.mem_filter, Finset.mem_range] at hd
  obtain ⟨z, hz, hr⟩ := hrep (r2.withDraws d) hr2.sortClient hr2.sortServer
    (by show Int.gcd (d.1 : Int) ((p * q : Nat) : Int) = 1
        rw [Int.gcd_natCast_natCast]; exact hd.1.2.symm)
    (by show (0 : Int) ≤ (d.2 : Int); omega)
    (by show (d.2 : Int) < ((p * q : Nat) : Int); exact_mod_cast hd.2)
  have hT : T0 = (entries sk els vals k1.draws).map fun t => (ids t.1, t.2) := by
    have hl : T0.length = els.length := by
      have := congrArg List.length ht2
      simpa using this
    refine List.ext_getElem (by simp [entries, hl, hlen]) fun i h1 h2 => ?_
    have hi : i < els.length := hl ▸ h1
    have hiv : i < vals.length := hlen ▸ hi
    have e1 : T0[i].1 = ids els[i] := by
      have := List.getElem_of_eq ht2 (i := i) (by simpa using h1)
      simpa using this
    have e2 : T0[i].2.1 = vals[i] := by
      have := List.getElem_of_eq ht1 (i := i) (by simpa using h1)
      simpa using congrArg Prod.snd this
    have e3 := ht4 i h1
    have e4 := ht3 T0[i] (List.getElem_mem h1)
    have e5 : BN.ofBytes (ciphertext sk vals[i] (k1.draws i)) = T0[i].2.2 := by
      rw [ciphertext, ← e2, e3]
      dsimp only
      rw [BN.ofBytes_natToBytes]
      omega
    simp only [entries, List.getElem_map, List.getElem_zip, List.getElem_mapIdx, e5]
    rw [← e1, ← e2]
  have hfil : (T0.filter fun t => decide (t.1 ∈ own.map ids)) =
      (commonEntries sk own els vals k1.draws).map fun t => (ids t.1, t.2) := by
    rw [hT, List.filter_map, commonEntries]
    refine congrArg _ (List.filter_congr ?_)
    intro t _
    have := List.mem_map_of_injective hids (a := t.1) (l := own)
    show decide (ids t.1 ∈ own.map ids) = decide (t.1 ∈ own)
    exact decide_eq_decide.2 this
  have hsize : commonSize (els.map ids) (own.map ids) =
      (commonEntries sk own els vals k1.draws).length := by
    have := congrArg List.length hfil
    rw [List.length_map] at this
    rw [← this, commonSize, ← ht2, List.filter_map, List.length_map]
    rfl
  rw [viewRun, hinit]
  simp only [hf, Option.map_some, serverRun_eq hE hh hH, hr, hfil, hsize, answer, List.map_map]
  have hz' : z * ((commonEntries sk own els vals k1.draws).map fun t => t.2.2).prod %
      ((p * q : Nat) : Int) ^ 3 =
      maskOf (p * q) d * ((commonEntries sk own els vals k1.draws).map fun t => t.2.2).prod %
      ((p * q : Nat) : Int) ^ 3 := hz.mul_right _
  rw [← hz']
  rfl

end

theorem hashValue_ne (h : Named c q gx gy) {sqrt : BigNum → BigNum → Res BigNum} (hs : SqrtOk sqrt q)
    (H : Hashes) (sswu : Bytes → Bytes → Res (c.W q).Point) (sha : Bytes → Bytes) {N : Nat}
    {ids : Fin N → Bytes} (ha : AllHashed (shaGroup c q gx gy H sqrt sswu sha) ids) (i : Fin N) :
    (shaGroup c q gx gy H sqrt sswu sha).hashSha256 (ids i) =
      .ok (hashValue (shaGroup c q gx gy H sqrt sswu sha) (ids i)) ∧
    hashValue (shaGroup c q gx gy H sqrt sswu sha) (ids i) ≠ 0 := by
  obtain ⟨P, hP⟩ := ha i
  have e : hashValue (shaGroup c q gx gy H sqrt sswu sha) (ids i) = P := by rw [hashValue, hP]
  rw [e]
  refine ⟨hP, ?_⟩
  obtain ⟨z, rfl, -⟩ := (shaGroup_hash h hs H sswu sha (ids i) P).1 hP
  exact (pt_spec h z).2.2

/-! ### Runs with a random SHA-256 -/

/-- SHA-256 given by the table `f` on the strings of `D`. -/
def randomSha (c : Curve) (B : Bytes → Bytes) (B₁ : Bytes → Blocks (Ctx.iterCount 256 c.p) 32)
    (D : Finset Bytes) (f : D → Blocks (Ctx.iterCount 256 c.p) 32) : Bytes → Bytes :=
  blockHash B (graft B₁ D f)

/-- The probability, without the choice of a decision procedure. -/
noncomputable def pr {α : Type} [Fintype α] (S : α → Prop) : ℚ := @prob α _ S (Classical.decPred S)

theorem prob_pr {α : Type} [Fintype α] (S : α → Prop) (d : DecidablePred S) : @prob α _ S d = pr S := by
  unfold pr
  congr!

/-- A question `R` about a run with a random SHA-256 is answered as the question `Q` about random points
is, if the answers are the same whenever all strings have a hash value and the hash values satisfy `J`. -/
theorem real_close (h : Named c q gx gy) {sqrt : BigNum → BigNum → Res BigNum} (hs : SqrtOk sqrt q)
    (H : Hashes) (sswu : Bytes → Bytes → Res (c.W q).Point) (B : Bytes → Bytes) {N : Nat} (hN : N ≤ 2 ^ 55)
    (ids : Fin N → Bytes) (hids : Function.Injective ids) (D : Finset Bytes) (hm : ∀ i, ids i ∈ D)
    (hD : ∀ v < q, BN.natToBytes v ∈ D) (B₁ : Bytes → Blocks (Ctx.iterCount 256 c.p) 32)
    {E : EcGroup (c.W q).Point} (hE : E.Lawful) (ho : E.order = c.order) {Ω : Type} [Fintype Ω] [Nonempty Ω]
    (R : Ω × (D → Blocks (Ctx.iterCount 256 c.p) 32) → Prop) [DecidablePred R]
    (Q : Ω → (Fin N → (c.W q).Point) → Prop) [∀ ω h, Decidable (Q ω h)]
    (J : (Fin N → (c.W q).Point) → Prop) [DecidablePred J]
    (hRQ : ∀ ω f, AllHashed (shaGroup c q gx gy H sqrt sswu (randomSha c B B₁ D f)) ids →
      J (fun i => hashValue (shaGroup c q gx gy H sqrt sswu (randomSha c B B₁ D f)) (ids i)) →
      (R (ω, f) ↔ Q ω fun i => hashValue (shaGroup c q gx gy H sqrt sswu (randomSha c B B₁ D f)) (ids i))) :
    |prob R - prob (fun t : Ω × (Fin N → Draw E) => Q t.1 (hashes E (oddY c) t.2))| ≤
      N / 2 ^ 125 + prob (fun r : Fin N → Draw E => ¬ J (hashes E (oddY c) r)) := by
  classical
  have : Nonempty (D → Blocks (Ctx.iterCount 256 c.p) 32) := ⟨fun x => B₁ x⟩
  have : Nonempty (Draw E) := ⟨⟨0, by have := hE.prime.two_le; omega⟩⟩
  have t1 := transfer h hs H sswu B hN ids hids D hm hD B₁ hE ho Q
  have t2 := transfer h hs H sswu B hN ids hids D hm hD B₁ hE ho fun (_ : Ω) => J
  have b1 : prob (fun t : Ω × (D → Blocks (Ctx.iterCount 256 c.p) 32) =>
        AllHashed (shaGroup c q gx gy H sqrt sswu (blockHash B (graft B₁ D t.2))) ids ∧
        J fun i => hashValue (shaGroup c q gx gy H sqrt sswu (blockHash B (graft B₁ D t.2))) (ids i)) +
      prob (fun t : Ω × (D → Blocks (Ctx.iterCount 256 c.p) 32) =>
        ¬ (AllHashed (shaGroup c q gx gy H sqrt sswu (blockHash B (graft B₁ D t.2))) ids ∧
        J fun i => hashValue (shaGroup c q gx gy H sqrt sswu (blockHash B (graft B₁ D t.2))) (ids i))) = 1 :=
    prob_add_prob_not _
  have b2 := prob_add_prob_not (fun t : Ω × (Fin N → Draw E) => J (hashes E (oddY c) t.2))
  have b3 : prob (fun t : Ω × (Fin N → Draw E) => ¬ J (hashes E (oddY c) t.2)) =
      prob (fun r : Fin N → Draw E => ¬ J (hashes E (oddY c) r)) :=
    prob_snd (α := Ω) (fun r : Fin N → Draw E => ¬ J (hashes E (oddY c) r))
  have b4 : |prob R - prob (fun t : Ω × (D → Blocks (Ctx.iterCount 256 c.p) 32) =>
        AllHashed (shaGroup c q gx gy H sqrt sswu (blockHash B (graft B₁ D t.2))) ids ∧
        Q t.1 fun i => hashValue (shaGroup c q gx gy H sqrt sswu (blockHash B (graft B₁ D t.2))) (ids i))| ≤
      prob (fun t : Ω × (D → Blocks (Ctx.iterCount 256 c.p) 32) =>
        ¬ (AllHashed (shaGroup c q gx gy H sqrt sswu (blockHash B (graft B₁ D t.2))) ids ∧
        J fun i => hashValue (shaGroup c q gx gy H sqrt sswu (blockHash B (graft B₁ D t.2))) (ids i))) := by
    refine prob_diff_le ?_
    rintro ⟨ω, f⟩ hb
    rw [not_not] at hb
    rw [hRQ ω f hb.1 hb.2]
    exact ⟨fun h => ⟨hb.1, h⟩, fun h => h.2⟩
  simp only [prob_pr] at t1 t2 b1 b2 b3 b4 ⊢
  have e : (N : ℚ) / 2 ^ 125 = N / 2 ^ 126 + N / 2 ^ 126 := by ring
  rw [e]
  have c1 := abs_le.1 t1
  have c2 := abs_le.1 t2
  have c4 := abs_le.1 b4
  rw [abs_le]
  constructor <;> linarith [c1.1, c1.2, c2.1, c2.2, c4.1, c4.2]

theorem order_large (h : Named c q gx gy) : 2 ^ 198 + 1 ≤ c.order := by
  obtain ⟨n1, -, n3, -⟩ := named_num h
  by_contra hlt
  have h1 : (2 ^ 100 + 1) * c.order ≤ (2 ^ 100 + 1) * 2 ^ 198 := Nat.mul_le_mul_left _ (by omega)
  have h2 : 2 ^ 100 * 2 ^ 200 ≤ 2 ^ 100 * q := Nat.mul_le_mul_left _ n3
  have h3 : (2 ^ 100 + 1) * 2 ^ 198 < 2 ^ 100 * 2 ^ 200 := by norm_num
  omega

theorem collision_small (h : Named c q gx gy) {N : Nat} (hN : N ≤ 2 ^ 55) :
    (N : ℚ) ^ 2 / ((c.order - 1 : Nat) : ℚ) ≤ N / 2 ^ 143 := by
  have ho := order_large h
  have h1 : (2 ^ 198 : ℚ) ≤ ((c.order - 1 : Nat) : ℚ) := by exact_mod_cast (by omega : 2 ^ 198 ≤ c.order - 1)
  have h2 : (N : ℚ) ≤ 2 ^ 55 := by exact_mod_cast hN
  have h0 : (0 : ℚ) ≤ N := by positivity
  calc (N : ℚ) ^ 2 / ((c.order - 1 : Nat) : ℚ) ≤ N ^ 2 / 2 ^ 198 :=
        div_le_div_of_nonneg_left (by positivity) (by positivity) h1
    _ = N * N / 2 ^ 198 := by ring
    _ ≤ N * 2 ^ 55 / 2 ^ 198 := by
        apply div_le_div_of_nonneg_right _ (by positivity)
        exact mul_le_mul_of_nonneg_left h2 h0
    _ = N / 2 ^ 143 := by ring

variable (c q gx gy) in
/-- The hash values of the identifiers when SHA-256 is `sha`. -/
noncomputable def hashValues (H : Hashes) (sqrt : BigNum → BigNum → Res BigNum)
    (sswu : Bytes → Bytes → Res (c.W q).Point) (sha : Bytes → Bytes) {N : Nat} (ids : Fin N → Bytes) :
    Fin N → (c.W q).Point :=
  fun i => hashValue (shaGroup c q gx gy H sqrt sswu sha) (ids i)

/-- **C139**, what the server learns from the client's message, when SHA-256 is a random function: two
clients whose identifiers meet the server's list at the same positions are not told apart with an
advantage above `2 N δ + 2 M ε + N / 2 ^ 124`, if `δ` bounds the Diffie-Hellman advantages and `ε` the
composite residuosity advantages of explicit algorithms. -/
theorem C139_two_clients (h : Named c q gx gy) {sqrt : BigNum → BigNum → Res BigNum} (hs : SqrtOk sqrt q)
    (H : Hashes) (sswu : Bytes → Bytes → Res (c.W q).Point) (B : Bytes → Bytes) {N M : Nat} (hN : N ≤ 2 ^ 55)
    (ids : Fin N → Bytes) (hids : Function.Injective ids) (D : Finset Bytes) (hm : ∀ i, ids i ∈ D)
    (hD : ∀ v < q, BN.natToBytes v ∈ D) (B₁ : Bytes → Blocks (Ctx.iterCount 256 c.p) 32)
    (own els els' : List (Fin N)) (ho : own.Nodup) (hnd : els.Nodup) (hnd' : els'.Nodup)
    (hpat : els.map (fun i => decide (i ∈ own)) = els'.map (fun i => decide (i ∈ own)))
    (hlen : els.length = M) {p₁ p₂ : Nat} [NeZero (p₁ * p₂)] (hk : GoodPrimes p₁ p₂) (v v' : Fin M → Nat)
    (hv : ∀ i, v i < (p₁ * p₂) ^ 2) (hv' : ∀ i, v' i < (p₁ * p₂) ^ 2) (cfg cfg' : ExpCfg)
    (r1 r1' : ServerRand) (sort : List EncElement → List EncElement) (hsort : IsSort sort)
    (sk : PrivatePaillier) (hsk : PrivatePaillier.new cfg p₁ p₂ 2 = .ok sk)
    (E : EcGroup (c.W q).Point) (hE : E = shaGroup c q gx gy H sqrt sswu H.sha256) (ws : Draw E)
    (S : (Fin N → (c.W q).Point) → Option ClientRoundOne → Prop) [∀ h m, Decidable (S h m)] (δ ε : ℚ)
    (hδ : ∀ j, |ddhAdv E (ddhAlgWith E (oddY c) (askPoints E own els v p₁ p₂ sk sort ws S) j)| ≤ δ)
    (hδ' : ∀ j, |ddhAdv E (ddhAlgWith E (oddY c) (askPoints E own els' v' p₁ p₂ sk sort ws S) j)| ≤ δ)
    (hε : ∀ j, |dcrAdv (p₁ * p₂) 2 (dcrAlg (p₁ * p₂) 2 v
      (askCts E (oddY c) own els (p₁ * p₂) sort ws S) j)| ≤ ε)
    (hε' : ∀ j, |dcrAdv (p₁ * p₂) 2 (dcrAlg (p₁ * p₂) 2 v'
      (askCts E (oddY c) own els' (p₁ * p₂) sort ws S) j)| ≤ ε) :
    |prob (fun t : ((Fin M → PDraw p₁ p₂) × Draw E) × (D → Blocks (Ctx.iterCount 256 c.p) 32) =>
        S (hashValues c q gx gy H sqrt sswu (randomSha c B B₁ D t.2) ids)
          (clientRun (shaGroup c q gx gy H sqrt sswu (randomSha c B B₁ D t.2)) (els.map ids) (own.map ids)
            (valueList v) p₁ p₂ cfg cfg' r1 ⟨drawsOf t.1.1, sort⟩ ws.val t.1.2.val)) -
      prob (fun t : ((Fin M → PDraw p₁ p₂) × Draw E) × (D → Blocks (Ctx.iterCount 256 c.p) 32) =>
        S (hashValues c q gx gy H sqrt sswu (randomSha c B B₁ D t.2) ids)
          (clientRun (shaGroup c q gx gy H sqrt sswu (randomSha c B B₁ D t.2)) (els'.map ids) (own.map ids)
            (valueList v') p₁ p₂ cfg cfg' r1' ⟨drawsOf t.1.1, sort⟩ ws.val t.1.2.val))| ≤
      2 * N * δ + 2 * M * ε + N / 2 ^ 124 := by
  subst hE
  have hl : els.length = els'.length := by simpa using congrArg List.length hpat
  have lawful := shaGroup_lawful h H sqrt sswu H.sha256
  have : Fact (shaGroup c q gx gy H sqrt sswu H.sha256).Lawful := ⟨lawful⟩
  have key := C106_two_clients (shaGroup c q gx gy H sqrt sswu H.sha256) (oddY c) ids hids own els els' ho hnd
    hnd' hpat hlen hk v v' hv hv' cfg cfg' r1 r1' sort hsort sk hsk ws S δ ε hδ hδ' hε hε'
  have hne : Nonempty (Draw (shaGroup c q gx gy H sqrt sswu H.sha256)) := ⟨ws⟩
  have one : 1 < p₁ * p₂ := by
    have := hk.two_lt_p; have := hk.two_lt_q; nlinarith
  have hnp : Nonempty (PDraw p₁ p₂) := by
    have := hk.two_lt_p; have := hk.two_lt_q
    exact ⟨⟨0, by omega⟩, ⟨0, by omega⟩⟩
  have side : ∀ (l : List (Fin N)) (u : Fin M → Nat) (r : ServerRand), l.length = M →
      (∀ i, u i < (p₁ * p₂) ^ 2) →
      |prob (fun t : ((Fin M → PDraw p₁ p₂) × Draw (shaGroup c q gx gy H sqrt sswu H.sha256)) ×
          (D → Blocks (Ctx.iterCount 256 c.p) 32) =>
        S (hashValues c q gx gy H sqrt sswu (randomSha c B B₁ D t.2) ids)
          (clientRun (shaGroup c q gx gy H sqrt sswu (randomSha c B B₁ D t.2)) (l.map ids) (own.map ids)
            (valueList u) p₁ p₂ cfg cfg' r ⟨drawsOf t.1.1, sort⟩ ws.val t.1.2.val)) -
      prob (fun t : (Fin M → PDraw p₁ p₂) × Draw (shaGroup c q gx gy H sqrt sswu H.sha256) ×
          (Fin N → Draw (shaGroup c q gx gy H sqrt sswu H.sha256)) =>
        S (hashes (shaGroup c q gx gy H sqrt sswu H.sha256) (oddY c) t.2.2)
        (clientSendsAll (shaGroup c q gx gy H sqrt sswu H.sha256) (oddY c) ids own l u p₁ p₂ cfg cfg' r sort ws
          t.1 t.2.1 t.2.2))| ≤ N / 2 ^ 125 := by
    intro l u r hlM hu
    have hval : ∀ x ∈ valueList u, 0 ≤ x ∧ x < ((p₁ * p₂ : Nat) : Int) ^ 2 := by
      intro x hx
      obtain ⟨i, rfl⟩ := (List.mem_ofFn' _ _).1 hx
      have := hu i
      exact ⟨Int.natCast_nonneg _, show ((u i : Nat) : Int) < _ by exact_mod_cast this⟩
    have hdr : ∀ (d : Fin M → PDraw p₁ p₂) (i : Nat), 0 ≤ (drawsOf d i).1 ∧ 0 ≤ (drawsOf d i).2 := by
      intro d i
      simp only [drawsOf]
      split
      · exact ⟨by simp only [PDraw.pair]; omega, by simp only [PDraw.pair]; omega⟩
      · norm_num
    have rc := real_close h hs H sswu B hN ids hids D hm hD B₁ lawful rfl
      (Ω := (Fin M → PDraw p₁ p₂) × Draw (shaGroup c q gx gy H sqrt sswu H.sha256))
      (fun t => S (hashValues c q gx gy H sqrt sswu (randomSha c B B₁ D t.2) ids)
          (clientRun (shaGroup c q gx gy H sqrt sswu (randomSha c B B₁ D t.2)) (l.map ids) (own.map ids)
            (valueList u) p₁ p₂ cfg cfg' r ⟨drawsOf t.1.1, sort⟩ ws.val t.1.2.val))
      (fun ω g => S g (some (clientMessage (shaGroup c q gx gy H sqrt sswu H.sha256) (p₁ * p₂) sort own l
        (ciphertexts sk (valueList u) (drawsOf ω.1)) ws fun i => ω.2.scalar • g i))) (fun _ => True) (by
        intro ω f ha _
        have hv := hashValue_ne h hs H sswu _ ha
        have e := clientRun_eq (shaGroup_lawful h H sqrt sswu (randomSha c B B₁ D f)) (fun i => (hv i).1)
          (fun i => (hv i).2) own l (valueList u) hk (by simp [valueList, hlM]) hval cfg cfg' r
          ⟨drawsOf ω.1, sort⟩ (hdr ω.1) hsk ws ω.2
        show S _ (clientRun _ _ _ _ _ _ _ _ _ _ _ _) ↔ _
        rw [e]
        exact Iff.rfl)
    have z : prob (fun r : Fin N → Draw (shaGroup c q gx gy H sqrt sswu H.sha256) => ¬ (fun _ => True)
        (hashes (shaGroup c q gx gy H sqrt sswu H.sha256) (oddY c) r)) = 0 := by
      refine Py.Prng.prob_false ?_
      intro r
      simp
    rw [← prob_equiv (Equiv.prodAssoc _ _ _) (fun t : (Fin M → PDraw p₁ p₂) × Draw (shaGroup c q gx gy H sqrt sswu H.sha256) ×
          (Fin N → Draw (shaGroup c q gx gy H sqrt sswu H.sha256)) =>
        S (hashes (shaGroup c q gx gy H sqrt sswu H.sha256) (oddY c) t.2.2)
        (clientSendsAll (shaGroup c q gx gy H sqrt sswu H.sha256) (oddY c) ids own l u p₁ p₂ cfg cfg' r sort ws
          t.1 t.2.1 t.2.2))]
    simp only [prob_pr] at rc z ⊢
    rw [z, add_zero] at rc
    refine le_trans (le_of_eq ?_) rc
    congr 3
    funext t
    have e := clientSends_eq lawful (oddY c) hids own l (valueList u) hk (by simp [valueList, hlM]) hval cfg cfg' r
      ⟨drawsOf t.1.1, sort⟩ (hdr t.1.1) hsk ws t.1.2 t.2
    simp only [clientSendsAll, Equiv.prodAssoc_apply, e]
  have s1 := side els v r1 hlen hv
  have s2 := side els' v' r1' (hl ▸ hlen) hv'
  have e : (N : ℚ) / 2 ^ 124 = N / 2 ^ 125 + N / 2 ^ 125 := by ring
  rw [e]
  rw [abs_le] at key s1 s2 ⊢
  constructor <;> linarith [key.1, key.2, s1.1, s1.2, s2.1, s2.2]

/-- **C139**, what the client learns in a whole run, when SHA-256 is a random function: two servers with
equally many identifiers that give the client the same size, sum and product of Jacobi symbols are not
told apart with an advantage above `2 N δ + N / 2 ^ 123 + 3 (p₁ + p₂) / ((p₁ - 1) (p₂ - 1))`. -/
theorem C139_two_servers (h : Named c q gx gy) {sqrt : BigNum → BigNum → Res BigNum} (hs : SqrtOk sqrt q)
    (H : Hashes) (sswu : Bytes → Bytes → Res (c.W q).Point) (B : Bytes → Bytes) {N : Nat} (hN : N ≤ 2 ^ 55)
    (ids : Fin N → Bytes) (hids : Function.Injective ids) (D : Finset Bytes) (hm : ∀ i, ids i ∈ D)
    (hD : ∀ v < q, BN.natToBytes v ∈ D) (B₁ : Bytes → Blocks (Ctx.iterCount 256 c.p) 32)
    (own own' els : List (Fin N)) (ho : own.Nodup) (ho' : own'.Nodup) (holen : own.length = own'.length)
    (hnd : els.Nodup) (vals : List Int) {p₁ p₂ : Nat} (hk : GoodPrimes p₁ p₂) (p5 : p₁ ≠ 5) (q5 : p₂ ≠ 5)
    (hlen : vals.length = els.length)
    (hvals : ∀ v ∈ vals, 0 ≤ v ∧ v < ((p₁ * p₂ : Nat) : Int) ^ 2) (cfg cfg' : ExpCfg)
    (r1 r1' r2 r2' : ServerRand) (hr2 : r2.Ok) (hr2' : r2'.Ok) (k1 : ClientRand) (hk1 : k1.Ok)
    (sk : PrivatePaillier) (hsk : PrivatePaillier.new cfg p₁ p₂ 2 = .ok sk)
    (E : EcGroup (c.W q).Point) (hE : E = shaGroup c q gx gy H sqrt sswu H.sha256) (wc : Draw E)
    (T T' : List (Fin N × Int × Int)) (hT : T = commonEntries sk own els vals k1.draws)
    (hT' : T' = commonEntries sk own' els vals k1.draws)
    (hsize : T.length = T'.length)
    (hsum : (T.map fun t => t.2.1).sum ≡ (T'.map fun t => t.2.1).sum
      [ZMOD ((p₁ * p₂ : Nat) : Int) ^ 2])
    (hsym : (T.map fun t => jacobiSym t.2.2 (p₁ * p₂)).prod =
      (T'.map fun t => jacobiSym t.2.2 (p₁ * p₂)).prod)
    (S : (Fin N → (c.W q).Point) → Option (List ServerMsg × List ServerMsg) → Prop)
    [∀ h m, Decidable (S h m)] (δ : ℚ)
    (hδ : ∀ j, |ddhAdv E (ddhAlgWith E (oddY c) (askView E own (p₁ * p₂) T S) j)| ≤ δ)
    (hδ' : ∀ j, |ddhAdv E (ddhAlgWith E (oddY c) (askView E own' (p₁ * p₂) T' S) j)| ≤ δ) :
    |prob (fun t : (PaillierDraws (p₁ * p₂) × Draw E) × (D → Blocks (Ctx.iterCount 256 c.p) 32) =>
        S (hashValues c q gx gy H sqrt sswu (randomSha c B B₁ D t.2) ids)
          (viewRun (shaGroup c q gx gy H sqrt sswu (randomSha c B B₁ D t.2)) (els.map ids) (own.map ids)
            vals p₁ p₂ cfg cfg' r1 r2 k1 wc.val t.1.1 t.1.2.val)) -
      prob (fun t : (PaillierDraws (p₁ * p₂) × Draw E) × (D → Blocks (Ctx.iterCount 256 c.p) 32) =>
        S (hashValues c q gx gy H sqrt sswu (randomSha c B B₁ D t.2) ids)
          (viewRun (shaGroup c q gx gy H sqrt sswu (randomSha c B B₁ D t.2)) (els.map ids) (own'.map ids)
            vals p₁ p₂ cfg cfg' r1' r2' k1 wc.val t.1.1 t.1.2.val))| ≤
      2 * N * δ + N / 2 ^ 123 + ((3 * (p₁ + p₂) : Nat) : ℚ) / (((p₁ - 1) * (p₂ - 1) : Nat) : ℚ) := by
  subst hE
  have lawful := shaGroup_lawful h H sqrt sswu H.sha256
  have : Fact (shaGroup c q gx gy H sqrt sswu H.sha256).Lawful := ⟨lawful⟩
  have key := C107_two_servers (shaGroup c q gx gy H sqrt sswu H.sha256) (oddY c) ids hids own own' els ho ho'
    holen hnd vals hk p5 q5 hlen hvals cfg cfg' r1 r1' r2 r2' hr2 hr2' k1 hk1 sk hsk wc T T' hT hT' hsize hsum
    hsym S δ hδ hδ'
  have hne : Nonempty (Draw (shaGroup c q gx gy H sqrt sswu H.sha256)) := ⟨wc⟩
  have npos : 1 < p₁ * p₂ := by
    have := hk.two_lt_p; have := hk.two_lt_q; nlinarith
  have hnp : Nonempty (PaillierDraws (p₁ * p₂)) := ⟨⟨(1, 0), by
    simp only [PaillierDraws, Finset.mem_product, Finset.mem_filter, Finset.mem_range]
    exact ⟨⟨npos, Nat.coprime_one_right _⟩, by omega⟩⟩⟩
  have small := collision_small h hN
  have side : ∀ (o : List (Fin N)) (r r' : ServerRand), r'.Ok →
      |prob (fun t : (PaillierDraws (p₁ * p₂) × Draw (shaGroup c q gx gy H sqrt sswu H.sha256)) ×
          (D → Blocks (Ctx.iterCount 256 c.p) 32) =>
        S (hashValues c q gx gy H sqrt sswu (randomSha c B B₁ D t.2) ids)
          (viewRun (shaGroup c q gx gy H sqrt sswu (randomSha c B B₁ D t.2)) (els.map ids) (o.map ids)
            vals p₁ p₂ cfg cfg' r r' k1 wc.val t.1.1 t.1.2.val)) -
      prob (fun t : PaillierDraws (p₁ * p₂) × Draw (shaGroup c q gx gy H sqrt sswu H.sha256) ×
          (Fin N → Draw (shaGroup c q gx gy H sqrt sswu H.sha256)) =>
        S (hashes (shaGroup c q gx gy H sqrt sswu H.sha256) (oddY c) t.2.2)
        (clientView (shaGroup c q gx gy H sqrt sswu H.sha256) (oddY c) ids o els vals p₁ p₂ cfg cfg' r r' k1 wc
          t.1 t.2.1 t.2.2))| ≤ N / 2 ^ 125 + N / 2 ^ 143 := by
    intro o r r' hr'
    classical
    have rc := real_close h hs H sswu B hN ids hids D hm hD B₁ lawful rfl
      (Ω := PaillierDraws (p₁ * p₂) × Draw (shaGroup c q gx gy H sqrt sswu H.sha256))
      (fun t => S (hashValues c q gx gy H sqrt sswu (randomSha c B B₁ D t.2) ids)
          (viewRun (shaGroup c q gx gy H sqrt sswu (randomSha c B B₁ D t.2)) (els.map ids) (o.map ids)
            vals p₁ p₂ cfg cfg' r r' k1 wc.val t.1.1 t.1.2.val))
      (fun ω g => S g (viewRun (withOracle (shaGroup c q gx gy H sqrt sswu H.sha256) ids g) (els.map ids)
        (o.map ids) vals p₁ p₂ cfg cfg' r r' k1 wc.val ω.1 ω.2.val)) (fun g => Function.Injective g) (by
        intro ω f ha hinj
        have hv := hashValue_ne h hs H sswu _ ha
        have e := viewRun_eq (shaGroup_lawful h H sqrt sswu (randomSha c B B₁ D f)) hids (fun i => (hv i).1)
          (fun i => (hv i).2) hinj o els hnd vals hk hlen hvals cfg cfg' r r' hr' k1 hk1 hsk wc ω.2 ω.1.2
        have e' := viewRun_eq (withOracle_lawful lawful ids
            fun i => hashValue (shaGroup c q gx gy H sqrt sswu (randomSha c B B₁ D f)) (ids i)) hids
          (fun i => withOracle_hash _ hids _ i)
          (fun i => (hv i).2) hinj o els hnd vals hk hlen hvals cfg cfg' r r' hr' k1 hk1 hsk wc ω.2 ω.1.2
        show S _ (viewRun _ _ _ _ _ _ _ _ _ _ _ _ _ _) ↔ S _ (viewRun _ _ _ _ _ _ _ _ _ _ _ _ _ _)
        rw [e, e']
        exact Iff.rfl)
    have z := collision (shaGroup c q gx gy H sqrt sswu H.sha256) (oddY c) (N := N)
    rw [← prob_equiv (Equiv.prodAssoc _ _ _) (fun t : PaillierDraws (p₁ * p₂) ×
          Draw (shaGroup c q gx gy H sqrt sswu H.sha256) ×
          (Fin N → Draw (shaGroup c q gx gy H sqrt sswu H.sha256)) =>
        S (hashes (shaGroup c q gx gy H sqrt sswu H.sha256) (oddY c) t.2.2)
        (clientView (shaGroup c q gx gy H sqrt sswu H.sha256) (oddY c) ids o els vals p₁ p₂ cfg cfg' r r' k1 wc
          t.1 t.2.1 t.2.2))]
    have z' := z.trans small
    simp only [prob_pr] at rc z' ⊢
    exact le_trans rc (by linarith only [z'])
  have s1 := side own r1 r2 hr2
  have s2 := side own' r1' r2' hr2'
  have e : (N : ℚ) / 2 ^ 123 = (N / 2 ^ 125 + N / 2 ^ 125) + (N / 2 ^ 125 + N / 2 ^ 125) := by ring
  have small' : (N : ℚ) / 2 ^ 143 ≤ N / 2 ^ 125 / 8 := by
    have h0 : (0 : ℚ) ≤ N := by positivity
    have : (N : ℚ) / 2 ^ 143 = N / 2 ^ 125 / 2 ^ 18 := by ring
    rw [this]
    exact div_le_div_of_nonneg_left (by positivity) (by norm_num) (by norm_num)
  have hord : (((shaGroup c q gx gy H sqrt sswu H.sha256).order - 1 : Nat) : ℚ) = ((c.order - 1 : Nat) : ℚ) := rfl
  rw [hord] at key
  rw [e]
  have h0 : (0 : ℚ) ≤ N / 2 ^ 125 := by positivity
  rw [abs_le] at key s1 s2 ⊢
  constructor <;> linarith [key.1, key.2, s1.1, s1.2, s2.1, s2.2]

/-! ### Examples -/

theorem table_domain (q : Nat) {N : Nat} (ids : Fin N → Bytes) : ∃ D : Finset Bytes, (∀ i, ids i ∈ D) ∧
    ∀ v < q, BN.natToBytes v ∈ D :=
  ⟨univ.image ids ∪ (range q).image BN.natToBytes,
    fun i => mem_union_left _ (mem_image_of_mem _ (mem_univ i)),
    fun _ hv => mem_union_right _ (mem_image_of_mem _ (mem_range.2 hv))⟩

/-- The clients of the example of C106 on a named curve, with different identifiers and values. -/
theorem clients_example (h : Named c q gx gy) {sqrt : BigNum → BigNum → Res BigNum} (hs : SqrtOk sqrt q)
    (H : Hashes) (sswu : Bytes → Bytes → Res (c.W q).Point) (cfg : ExpCfg) (r1 : ServerRand)
    (sk : PrivatePaillier) (hsk : PrivatePaillier.new cfg (7 : Nat) (11 : Nat) 2 = .ok sk)
    (E : EcGroup (c.W q).Point) (hE : E = shaGroup c q gx gy H sqrt sswu H.sha256) (ws : Draw E)
    (S : (Fin 4 → (c.W q).Point) → Option ClientRoundOne → Prop) [∀ h m, Decidable (S h m)] :
    ∃ D : Finset Bytes,
    |prob (fun t : ((Fin 3 → PDraw 7 11) × Draw E) × (D → Blocks (Ctx.iterCount 256 c.p) 32) =>
        S (hashValues c q gx gy H sqrt sswu (randomSha c id (fun _ _ _ => 0) D t.2) (toyIds 4))
          (clientRun (shaGroup c q gx gy H sqrt sswu (randomSha c id (fun _ _ _ => 0) D t.2))
            ([0, 1, 3].map (toyIds 4)) ([1].map (toyIds 4)) (valueList ![5, 9, 2]) 7 11 cfg cfg r1
            ⟨drawsOf t.1.1, insSort⟩ ws.val t.1.2.val)) -
      prob (fun t : ((Fin 3 → PDraw 7 11) × Draw E) × (D → Blocks (Ctx.iterCount 256 c.p) 32) =>
        S (hashValues c q gx gy H sqrt sswu (randomSha c id (fun _ _ _ => 0) D t.2) (toyIds 4))
          (clientRun (shaGroup c q gx gy H sqrt sswu (randomSha c id (fun _ _ _ => 0) D t.2))
            ([2, 1, 0].map (toyIds 4)) ([1].map (toyIds 4)) (valueList ![7, 7, 7]) 7 11 cfg cfg r1
            ⟨drawsOf t.1.1, insSort⟩ ws.val t.1.2.val))| ≤
      2 * (4 : Nat) * 1 + 2 * (3 : Nat) * 1 + (4 : Nat) / 2 ^ 124 := by
  obtain ⟨D, d1, d2⟩ := table_domain q (toyIds 4)
  exact ⟨D, C139_two_clients h hs H sswu id (by norm_num) (toyIds 4) toyIds_inj D d1 d2 _ [1] [0, 1, 3] [2, 1, 0]
    (by decide) (by decide) (by decide) (by decide) rfl goodPrimes_toy ![5, 9, 2] ![7, 7, 7] (by decide)
    (by decide) cfg cfg r1 r1 insSort insSort_isSort sk hsk E hE ws S 1 1
    (fun _ => abs_prob_sub_le_one _ _) (fun _ => abs_prob_sub_le_one _ _)
    (fun _ => abs_prob_sub_le_one _ _) (fun _ => abs_prob_sub_le_one _ _)⟩

/-- The servers of the example of C107 on a named curve: one has the identifiers 0 and 2, the other 1
and 3, and the client has 0 and 1, both with the value 5. -/
theorem servers_example (h : Named c q gx gy) {sqrt : BigNum → BigNum → Res BigNum} (hs : SqrtOk sqrt q)
    (H : Hashes) (sswu : Bytes → Bytes → Res (c.W q).Point) (cfg : ExpCfg) (r1 : ServerRand)
    (sk : PrivatePaillier) (hsk : PrivatePaillier.new cfg (7 : Nat) (11 : Nat) 2 = .ok sk)
    (E : EcGroup (c.W q).Point) (hE : E = shaGroup c q gx gy H sqrt sswu H.sha256) (wc : Draw E)
    (S : (Fin 4 → (c.W q).Point) → Option (List ServerMsg × List ServerMsg) → Prop)
    [∀ h m, Decidable (S h m)] :
    let k1 : ClientRand := ⟨fun i => if i = 0 then (3, 1) else (1, 1), insSort⟩
    ∃ D : Finset Bytes,
    |prob (fun t : (PaillierDraws (7 * 11) × Draw E) × (D → Blocks (Ctx.iterCount 256 c.p) 32) =>
        S (hashValues c q gx gy H sqrt sswu (randomSha c id (fun _ _ _ => 0) D t.2) (toyIds 4))
          (viewRun (shaGroup c q gx gy H sqrt sswu (randomSha c id (fun _ _ _ => 0) D t.2))
            ([0, 1].map (toyIds 4)) ([0, 2].map (toyIds 4)) [5, 5] 7 11 cfg cfg r1 toyServerRand k1 wc.val
            t.1.1 t.1.2.val)) -
      prob (fun t : (PaillierDraws (7 * 11) × Draw E) × (D → Blocks (Ctx.iterCount 256 c.p) 32) =>
        S (hashValues c q gx gy H sqrt sswu (randomSha c id (fun _ _ _ => 0) D t.2) (toyIds 4))
          (viewRun (shaGroup c q gx gy H sqrt sswu (randomSha c id (fun _ _ _ => 0) D t.2))
            ([0, 1].map (toyIds 4)) ([1, 3].map (toyIds 4)) [5, 5] 7 11 cfg cfg r1 toyServerRand k1 wc.val
            t.1.1 t.1.2.val))| ≤
      2 * (4 : Nat) * 1 + (4 : Nat) / 2 ^ 123 +
        ((3 * (7 + 11) : Nat) : ℚ) / (((7 - 1) * (11 - 1) : Nat) : ℚ) := by
  intro k1
  obtain ⟨D, d1, d2⟩ := table_domain q (toyIds 4)
  have hk1 : k1.Ok := ⟨fun i => by simp only [k1]; split <;> norm_num, insSort_isSort⟩
  obtain ⟨x, h1, h2, h3⟩ := ciphertext_ok goodPrimes_toy hsk (v := 5) (by norm_num) (by norm_num)
    (d := (3, 1)) (by norm_num)
  obtain ⟨x', h1', h2', h3'⟩ := ciphertext_ok goodPrimes_toy hsk (v := 5) (by norm_num)
    (by norm_num) (d := (1, 1)) (by norm_num)
  have j1 := jac_privateEncrypt (by norm_num) hsk (by norm_num) (by norm_num) h1
  have j2 := jac_privateEncrypt (by norm_num) hsk (by norm_num) (by norm_num) h1'
  refine ⟨D, C139_two_servers h hs H sswu id (by norm_num) (toyIds 4) toyIds_inj D d1 d2 _ [0, 2] [1, 3] [0, 1]
    (by decide) (by decide) rfl (by decide) [5, 5] goodPrimes_toy (by norm_num) (by norm_num) rfl (by decide) cfg
    cfg r1 r1 toyServerRand toyServerRand toyServerRand_ok toyServerRand_ok k1 hk1 sk hsk E hE wc
    [(0, 5, x)] [(1, 5, x')] ?_ ?_ rfl rfl ?_ S 1 (fun _ => abs_prob_sub_le_one _ _)
    (fun _ => abs_prob_sub_le_one _ _)⟩
  · simp [commonEntries, entries, k1, h3, BN.ofBytes_natToBytes, h2]
  · simp [commonEntries, entries, k1, h3', BN.ofBytes_natToBytes, h2']
  · simp only [List.map_cons, List.map_nil, List.prod_cons, List.prod_nil, mul_one, j1, j2]
    decide

/-- On P-256 the hypotheses on the curve, on the square roots and on the group are met. -/
theorem C139_reached (H : Hashes) (sswu : Bytes → Bytes → Res (p256.W q256).Point) :
    Named p256 q256 p256Gx p256Gy ∧ SqrtOk (powSqrt 256) q256 ∧
    ∃ E : EcGroup (p256.W q256).Point,
      E = shaGroup p256 q256 p256Gx p256Gy H (powSqrt 256) sswu H.sha256 ∧ Nonempty (Draw E) := by
  refine ⟨.p256, q256_sqrt, _, rfl, ?_⟩
  have := order_large Named.p256
  exact ⟨⟨0, show 0 < p256.order - 1 by omega⟩⟩

end PJC.RandomSha
