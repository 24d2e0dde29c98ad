import Verif.Lemmas.Program
import Verif.Props.RandomSha
/-
C140: as C139, for parties that can also evaluate SHA-256.

Specification.  SHA-256 is given by a random table (`randomSha`), as in C139, and a question `S` is asked
about this function and the messages of the run.  The Diffie-Hellman and residuosity algorithms of the
reductions draw a table and, for each identifier and point, an answer of the oracle that leads to this point
(`Tables`).  They answer `S` with the table changed so that the hash values are their points (`changed`).
-/
set_option linter.unusedSectionVars false
namespace PJC.RandomTable
open PJC PJC.Prob PJC.Oracle PJC.Curve PJC.Loops PJC.Uniform PJC.HashUniform PJC.Protocol PJC.Props Finset
open PJC.RandomSha hiding pr prob_pr
open PJC.Program PJC.DJ PJC.Stat

variable {c : Curve} {q : Nat} {gx gy : Int} [Fact q.Prime]

/-! ### Specification -/

/-- The values of SHA-256 for one string with which the random oracle of the code answers. -/
abbrev Answer (c : Curve) : Type := Blocks (Ctx.iterCount 256 c.p) 32

/-- The number the oracle makes of them. -/
def number (P : Int) (y : Blocks (Ctx.iterCount 256 P) 32) : Nat :=
  value y / 2 ^ (Ctx.iterCount 256 P * 32 * 8 - (BN.bitLength P + 256)) % P.toNat

/-- The answers for which hashing to the curve ends with the point `w`. -/
def Ending (c : Curve) (q : Nat) (sqrt : BigNum → BigNum → Res BigNum) (w : hashPoints c q) (y : Answer c) :
    Prop := c.hashInternal sqrt (number c.p y : Int) = .ok (.aff w.1.1 w.1.2)

/-- What hashing to the curve asks next after the answer `y` (nothing if it ends). -/
noncomputable def following (c : Curve) (sqrt : BigNum → BigNum → Res BigNum) (y : Answer c) : Option Bytes :=
  nextX c sqrt (number c.p y)

/-- A table, and for each identifier and each point an answer that ends with this point. -/
abbrev Tables (c : Curve) (q : Nat) (sqrt : BigNum → BigNum → Res BigNum) (D : Finset Bytes) (N : Nat) : Type :=
  (D → Answer c) × Lifts N (Ending c q sqrt)

/-- The table, changed where hashing the identifiers ends so that their hash values are the points `g`. -/
noncomputable def changed (c : Curve) (q : Nat) [Fact q.Prime] (sqrt : BigNum → BigNum → Res BigNum)
    (B₁ : Bytes → Answer c) {D : Finset Bytes} {N : Nat} (ids : Fin N → Bytes) (x : Tables c q sqrt D N)
    (g : Fin N → (c.W q).Point) : D → Answer c := by
  classical
  exact if hz : ∃ z : Fin N → hashPoints c q, ∀ i, g i = pt (z i) then
    program (following c sqrt) (Ending c q sqrt) B₁ 128 ids x.1 hz.choose x.2 else x.1

/-! ### The oracle -/

theorem number_oracle {P : Int} (hP : P = (q : Int)) (hbits : BN.bitLength P ≤ 4096) (B : Bytes → Bytes)
    (o : Bytes → Blocks (Ctx.iterCount 256 P) 32) (s : Bytes) :
    Ctx.randomOracle (blockHash B o) 256 s P = .ok (number P (o s) : Int) := by
  subst hP
  have hp0 : 0 < q := (Fact.out : q.Prime).pos
  have he : BN.bitLength (q : Int) + 256 ≤ Ctx.iterCount 256 (q : Int) * 32 * 8 := bits_le (L := 32) (by norm_num) q
  have hM : Ctx.iterCount 256 (q : Int) ≤ 255 ∧ Ctx.iterCount 256 (q : Int) * 256 < 130048 := by
    unfold Ctx.iterCount
    omega
  exact randomOracle_blocks (L := 32) B o s hp0 rfl hM.1 hM.2 (by omega)

theorem number_lt {P : Int} (hP : P = (q : Int)) (y : Blocks (Ctx.iterCount 256 P) 32) : number P y < q := by
  subst hP
  exact Nat.mod_lt _ (Fact.out : q.Prime).pos

theorem number_close {P : Int} (hP : P = (q : Int)) {z : Nat} (hz : z < q) :
    (1 - 1 / 2 ^ (8 * 32)) / q ≤ pr (fun y : Blocks (Ctx.iterCount 256 P) 32 => number P y = z) ∧
      pr (fun y : Blocks (Ctx.iterCount 256 P) 32 => number P y = z) ≤ (1 + 1 / 2 ^ (8 * 32)) / q := by
  subst hP
  have := prob_out (L := 32) (by norm_num) (Fact.out : q.Prime).pos hz
  simp only [prob_pr] at this
  exact this

/-- The table together with the hash values. -/
theorem table_close (h : Named c q gx gy) {sqrt : BigNum → BigNum → Res BigNum} (hs : SqrtOk sqrt q)
    (B : Bytes → Bytes) (H : Hashes) {n : Nat} (hn : n ≤ 2 ^ 55) (ms : Fin n → Bytes)
    (hms : Function.Injective ms) (D : Finset Bytes) (hm : ∀ i, ms i ∈ D) (hD : ∀ v < q, BN.natToBytes v ∈ D)
    (B₁ : Bytes → Answer c) (Q : (D → Answer c) → (Fin n → hashPoints c q) → Prop) :
    |pr (fun f : D → Answer c => ∃ z, (∀ i,
        c.hashSha256 { H with sha256 := blockHash B (graft B₁ D f) } sqrt 128 (ms i) =
          some (.ok (.aff (z i).1.1 (z i).1.2))) ∧ Q f z) -
      pr (fun s : (D → Answer c) × ((Fin n → hashPoints c q) × Lifts n (Ending c q sqrt)) =>
        Q (program (following c sqrt) (Ending c q sqrt) B₁ 128 ms s.1 s.2.1 s.2.2) s.2.1)| ≤ n / 2 ^ 126 := by
  classical
  obtain ⟨hp, hq, -, -, -⟩ := C111_prime_order h
  obtain ⟨-, -, n4, n5⟩ := named_num h
  have hpr := h.certified.proper
  have hbits : BN.bitLength c.p ≤ 4096 := by rw [hp]; exact n5
  have hqq : (0 : ℚ) < q := by exact_mod_cast hq.pos
  have : Nonempty (Answer c) := ⟨B₁ []⟩
  have ho : ∀ (o : Bytes → Answer c) (s : Bytes),
      Ctx.randomOracle (blockHash B o) 256 s c.p = .ok (number c.p (o s) : Int) := number_oracle hp hbits B
  have hlt : ∀ y : Answer c, number c.p y < q := number_lt hp
  have hout : ∀ z < q, _ := fun z hz => number_close (P := c.p) hp hz
  have : Nonempty (hashPoints c q) := by
    have hE := shaGroup_lawful h H sqrt (fun _ _ => .crash) H.sha256
    obtain ⟨z, -⟩ := signed_pt h (Draw.point_ne hE ⟨0, by have := hE.prime.two_le; omega⟩)
    exact ⟨z⟩
  have hterm : ∀ (f : D → Answer c) i, c.hashSha256 { H with sha256 := blockHash B (graft B₁ D f) } sqrt 128 (ms i) =
      (term (graft B₁ D f) (following c sqrt) 128 (ms i)).map fun t =>
        c.hashInternal sqrt (number c.p (graft B₁ D f t) : Int) := fun f i =>
    hashToCurve_term hpr hs (ho _) 128 (ms i)
  have hν := fun i => (C126_hash_named h hs B H (ms i) D (hm i) hD B₁ (fun _ _ _ => 0) (fun _ _ _ => 0)).1
  simp only [prob_pr] at hν
  apply named_bound n4 (L := 32) (by norm_num) hn
  obtain ⟨d, hd⟩ : ∃ d : ℚ, d = 1 / 2 ^ (8 * 32) := ⟨_, rfl⟩
  have hd0 : 0 ≤ d := by rw [hd]; positivity
  have hd1 : d < 1 := by rw [hd]; norm_num
  rw [← hd] at hout ⊢
  have key := program_close (n := n) (following c sqrt) (D := D) (γ := 2 / q) (ν := 1 / 2 ^ 127) (by
      intro y z hz
      unfold following nextX at hz
      split at hz
      · cases hz
      · cases hz
        exact hD _ (hlt y)) (by positivity) (by
      intro z
      have hmono : ∀ y : Answer c, following c sqrt y = some z → number c.p y = (BN.ofBytes z).toNat := by
        intro y hy
        unfold following nextX at hy
        split at hy
        · cases hy
        · cases hy
          rw [BN.ofBytes_natToBytes, Int.toNat_natCast]
      by_cases hz : (BN.ofBytes z).toNat < q
      · refine (pr_mono hmono).trans ((hout _ hz).2.trans ?_)
        apply div_le_div_of_nonneg_right _ hqq.le
        linarith only [hd1]
      · refine le_trans (le_of_eq (pr_false ?_)) (by positivity)
        intro y hy
        exact hz ((hmono y hy) ▸ hlt y)) B₁ 128 ms hm hms (by
      intro i
      refine le_trans (pr_mono fun f hf => ?_) (hν i)
      rw [hterm, hf]
      rfl) (Ending c q sqrt) (by
      intro w y hy
      unfold following nextX
      rw [if_pos ⟨_, hy⟩]) (by
      intro y hy
      unfold following nextX at hy
      split at hy
      · next hP =>
        obtain ⟨P, hP⟩ := hP
        obtain ⟨w, rfl⟩ := accepted hpr hs (hlt y) hP
        exact ⟨w, hP⟩
      · cases hy) (by
      intro w w' y h1 h2
      unfold Ending at h1 h2
      rw [h1] at h2
      obtain ⟨e1, e2⟩ := RawPoint.aff.inj (Res.ok.inj h2)
      apply Subtype.ext
      exact Prod.ext (by exact_mod_cast e1) (by exact_mod_cast e2)) (l := 1 - d) (u := 1 + d) (p := q)
      (by linarith only [hd1]) (by linarith only [hd0]) hqq (by
      intro w
      have hw : w.1.1 < q := mem_range.1 (mem_product.1 (mem_filter.1 w.2).1).1
      have := hout _ hw
      have e : pr (Ending c q sqrt w) = pr fun y : Answer c => number c.p y = w.1.1 :=
        pr_congr fun y => accepts_iff hpr hs (hlt y) w
      rwa [← e] at this) Q
  refine le_trans (le_of_eq ?_) key
  congr 2
  refine pr_congr fun f => exists_congr fun z => and_congr_left fun _ => forall_congr' fun i => ?_
  rw [hterm]
  simp only [Option.map_eq_some_iff]
  rfl

theorem changed_pt (h : Named c q gx gy) {sqrt : BigNum → BigNum → Res BigNum} (B₁ : Bytes → Answer c)
    {D : Finset Bytes} {N : Nat} (ids : Fin N → Bytes) (x : Tables c q sqrt D N) (z : Fin N → hashPoints c q) :
    changed c q sqrt B₁ ids x (fun i => pt (z i)) =
      program (following c sqrt) (Ending c q sqrt) B₁ 128 ids x.1 z x.2 := by
  have hz : ∃ z' : Fin N → hashPoints c q, ∀ i, (fun i => pt (z i)) i = pt (z' i) := ⟨z, fun _ => rfl⟩
  have e : hz.choose = z := by
    funext i
    exact (pt_inj h (hz.choose_spec i)).symm
  rw [changed, dif_pos hz, e]

/-- With the changed table hashing gives the wanted points, if it ended at different strings before. -/
theorem changed_hash (h : Named c q gx gy) {sqrt : BigNum → BigNum → Res BigNum} (hs : SqrtOk sqrt q)
    (H : Hashes) (sswu : Bytes → Bytes → Res (c.W q).Point) (B : Bytes → Bytes) (B₁ : Bytes → Answer c)
    {D : Finset Bytes} {N : Nat} (ids : Fin N → Bytes) (x : Tables c q sqrt D N) (z : Fin N → hashPoints c q)
    (t : Fin N → D) (ht : Function.Injective t) (he : Ends (graft B₁ D x.1) (following c sqrt) 128 ids t)
    (i : Fin N) : (shaGroup c q gx gy H sqrt sswu (randomSha c B B₁ D
      (changed c q sqrt B₁ ids x fun i => pt (z i)))).hashSha256 (ids i) = .ok (pt (z i)) := by
  obtain ⟨hp, -, -, -, -⟩ := C111_prime_order h
  obtain ⟨-, -, -, n5⟩ := named_num h
  have hbits : BN.bitLength c.p ≤ 4096 := by rw [hp]; exact n5
  have : Nonempty (hashPoints c q) := ⟨z i⟩
  have : Nonempty (Answer c) := ⟨B₁ []⟩
  rw [changed_pt h, program_ends ht he]
  have hval : ∀ j, Function.extend t (fun i => (x.2 i (z i)).1) x.1 (t j) = (x.2 j (z j)).1 :=
    fun j => ht.extend_apply _ _ j
  have hen : ∀ j, following c sqrt (x.2 j (z j)).1 = none := by
    intro j
    unfold following nextX
    rw [if_pos ⟨_, (x.2 j (z j)).2⟩]
  have he' : Ends (graft B₁ D (Function.extend t (fun i => (x.2 i (z i)).1) x.1)) (following c sqrt) 128 ids t :=
    ends_congr he (fun j => by rw [hval]; exact hen j)
      fun d hd => Function.extend_apply' _ _ _ fun ⟨j, hj⟩ => hd ⟨j, hj⟩
  refine (shaGroup_hash h hs H sswu _ (ids i) _).2 ⟨z i, rfl, ?_⟩
  have e : c.hashSha256 { H with sha256 := blockHash B (graft B₁ D
      (Function.extend t (fun i => (x.2 i (z i)).1) x.1)) } sqrt 128 (ids i) = _ :=
    hashToCurve_term h.certified.proper hs (number_oracle hp hbits B _) 128 (ids i)
  refine e.trans ?_
  have hi := he' i
  unfold following at hi
  rw [hi, Option.map_some, graft_mem B₁ (t i).2]
  have hv : Function.extend t (fun i => (x.2 i (z i)).1) x.1 ⟨(t i).1, (t i).2⟩ = (x.2 i (z i)).1 := hval i
  rw [hv]
  exact congrArg some (x.2 i (z i)).2

/-- A question about the table, the hash values and coins is answered as it is about random points and the
table changed to have them as hash values. -/
theorem transfer_table (h : Named c q gx gy) {sqrt : BigNum → BigNum → Res BigNum} (hs : SqrtOk sqrt q)
    (H : Hashes) (sswu : Bytes → Bytes → Res (c.W q).Point) (B : Bytes → Bytes) {N : Nat} (hN : N ≤ 2 ^ 55)
    (ids : Fin N → Bytes) (hids : Function.Injective ids) (D : Finset Bytes) (hm : ∀ i, ids i ∈ D)
    (hD : ∀ v < q, BN.natToBytes v ∈ D) (B₁ : Bytes → Answer c)
    {E : EcGroup (c.W q).Point} (hE : E.Lawful) (ho : E.order = c.order) {Ω : Type} [Fintype Ω]
    (Q : Ω → (D → Answer c) → (Fin N → (c.W q).Point) → Prop) :
    |pr (fun t : Ω × (D → Answer c) =>
        AllHashed (shaGroup c q gx gy H sqrt sswu (randomSha c B B₁ D t.2)) ids ∧
        Q t.1 t.2 (hashValues c q gx gy H sqrt sswu (randomSha c B B₁ D t.2) ids)) -
      pr (fun t : (Ω × Tables c q sqrt D N) × (Fin N → Draw E) =>
        Q t.1.1 (changed c q sqrt B₁ ids t.1.2 (hashes E (oddY c) t.2)) (hashes E (oddY c) t.2))| ≤
      N / 2 ^ 126 := by
  classical
  have hpt : ∀ Q' : (Fin N → (c.W q).Point) → Prop, pr (fun r : Fin N → Draw E => Q' (hashes E (oddY c) r)) =
      pr (fun z : Fin N → hashPoints c q => Q' fun i => pt (z i)) := by
    intro Q'
    have := prob_hashes h hE ho Q'
    rw [prob_pr] at this
    rw [this, ← prob_pr _ inferInstance, prob, Fintype.card_fun, Fintype.card_fin, Fintype.card_coe]
    push_cast
    rfl
  have e2 : pr (fun t : (Ω × Tables c q sqrt D N) × (Fin N → Draw E) =>
        Q t.1.1 (changed c q sqrt B₁ ids t.1.2 (hashes E (oddY c) t.2)) (hashes E (oddY c) t.2)) =
      (∑ ω, pr (fun s : (D → Answer c) × ((Fin N → hashPoints c q) × Lifts N (Ending c q sqrt)) =>
        Q ω (program (following c sqrt) (Ending c q sqrt) B₁ 128 ids s.1 s.2.1 s.2.2) fun i => pt (s.2.1 i))) /
      Fintype.card Ω := by
    have e3 : pr (fun t : (Ω × Tables c q sqrt D N) × (Fin N → Draw E) =>
        Q t.1.1 (changed c q sqrt B₁ ids t.1.2 (hashes E (oddY c) t.2)) (hashes E (oddY c) t.2)) =
        pr (fun t : (Ω × Tables c q sqrt D N) × (Fin N → hashPoints c q) =>
        Q t.1.1 (changed c q sqrt B₁ ids t.1.2 fun i => pt (t.2 i)) fun i => pt (t.2 i)) := by
      rw [pr_prod fun (a : Ω × Tables c q sqrt D N) (r : Fin N → Draw E) =>
          Q a.1 (changed c q sqrt B₁ ids a.2 (hashes E (oddY c) r)) (hashes E (oddY c) r),
        pr_prod fun (a : Ω × Tables c q sqrt D N) (z : Fin N → hashPoints c q) =>
          Q a.1 (changed c q sqrt B₁ ids a.2 fun i => pt (z i)) fun i => pt (z i)]
      congr 1
      exact sum_congr rfl fun a _ => hpt fun g => Q a.1 (changed c q sqrt B₁ ids a.2 g) g
    let e : ((Ω × Tables c q sqrt D N) × (Fin N → hashPoints c q)) ≃
        Ω × ((D → Answer c) × ((Fin N → hashPoints c q) × Lifts N (Ending c q sqrt))) :=
      ⟨fun t => (t.1.1, t.1.2.1, t.2, t.1.2.2), fun t => ((t.1, t.2.1, t.2.2.2), t.2.2.1), fun _ => rfl, fun _ => rfl⟩
    rw [e3, ← pr_prod fun (ω : Ω) (s : (D → Answer c) × ((Fin N → hashPoints c q) × Lifts N (Ending c q sqrt))) =>
        Q ω (program (following c sqrt) (Ending c q sqrt) B₁ 128 ids s.1 s.2.1 s.2.2) fun i => pt (s.2.1 i),
      ← pr_equiv e]
    refine pr_congr fun t => ?_
    rw [changed_pt h]
    rfl
  rw [e2, pr_prod fun (ω : Ω) (f : D → Answer c) =>
      AllHashed (shaGroup c q gx gy H sqrt sswu (randomSha c B B₁ D f)) ids ∧
        Q ω f (hashValues c q gx gy H sqrt sswu (randomSha c B B₁ D f) ids),
    ← sub_div, ← sum_sub_distrib, abs_div, Nat.abs_cast]
  apply div_le_of_le_mul₀ (by positivity) (by positivity)
  refine (abs_sum_le_sum_abs _ _).trans ((sum_le_sum (g := fun _ => (N : ℚ) / 2 ^ 126) fun ω _ => ?_).trans
    (by rw [sum_const, card_univ, nsmul_eq_mul, mul_comm]))
  refine le_trans (le_of_eq ?_) (table_close h hs B H hN ids hids D hm hD B₁ fun f z => Q ω f fun i => pt (z i))
  congr 2
  refine pr_congr fun f => ?_
  constructor
  · rintro ⟨hall, hq⟩
    choose P hP using hall
    choose z hz using fun i => (shaGroup_hash h hs H sswu _ (ids i) (P i)).1 (hP i)
    refine ⟨z, fun i => (hz i).2, ?_⟩
    have : hashValues c q gx gy H sqrt sswu (randomSha c B B₁ D f) ids = fun i => pt (z i) := by
      funext i
      rw [hashValues, hashValue, hP i]
      exact (hz i).1
    rwa [this] at hq
  · rintro ⟨z, he, hq⟩
    have hP : ∀ i, (shaGroup c q gx gy H sqrt sswu (randomSha c B B₁ D f)).hashSha256 (ids i) =
        .ok (pt (z i)) := fun i => (shaGroup_hash h hs H sswu _ (ids i) _).2 ⟨z i, rfl, he i⟩
    refine ⟨fun i => ⟨_, hP i⟩, ?_⟩
    have : hashValues c q gx gy H sqrt sswu (randomSha c B B₁ D f) ids = fun i => pt (z i) := by
      funext i
      rw [hashValues, hashValue, hP i]
    rwa [this]

/-- As `RandomSha.real_close`, for questions that also see the table. -/
theorem real_table (h : Named c q gx gy) {sqrt : BigNum → BigNum → Res BigNum} (hs : SqrtOk sqrt q)
    (H : Hashes) (sswu : Bytes → Bytes → Res (c.W q).Point) (B : Bytes → Bytes) {N : Nat} (hN : N ≤ 2 ^ 55)
    (ids : Fin N → Bytes) (hids : Function.Injective ids) (D : Finset Bytes) (hm : ∀ i, ids i ∈ D)
    (hD : ∀ v < q, BN.natToBytes v ∈ D) (B₁ : Bytes → Answer c)
    {E : EcGroup (c.W q).Point} (hE : E.Lawful) (ho : E.order = c.order) {Ω : Type} [Fintype Ω] [Nonempty Ω]
    (R : Ω × (D → Answer c) → Prop)
    (Q : Ω → (D → Answer c) → (Fin N → (c.W q).Point) → Prop) (J : (Fin N → (c.W q).Point) → Prop)
    (hRQ : ∀ ω f, AllHashed (shaGroup c q gx gy H sqrt sswu (randomSha c B B₁ D f)) ids →
      J (hashValues c q gx gy H sqrt sswu (randomSha c B B₁ D f) ids) →
      (R (ω, f) ↔ Q ω f (hashValues c q gx gy H sqrt sswu (randomSha c B B₁ D f) ids))) :
    |pr R - pr (fun t : (Ω × Tables c q sqrt D N) × (Fin N → Draw E) =>
        Q t.1.1 (changed c q sqrt B₁ ids t.1.2 (hashes E (oddY c) t.2)) (hashes E (oddY c) t.2))| ≤
      N / 2 ^ 125 + pr (fun r : Fin N → Draw E => ¬ J (hashes E (oddY c) r)) := by
  classical
  have : Nonempty (D → Answer c) := ⟨fun x => B₁ x⟩
  have : Nonempty (Draw E) := ⟨⟨0, by have := hE.prime.two_le; omega⟩⟩
  have t1 := transfer_table h hs H sswu B hN ids hids D hm hD B₁ hE ho Q
  have t2 := RandomSha.transfer h hs H sswu B hN ids hids D hm hD B₁ hE ho fun (_ : Ω) => J
  have b1 := pr_not (fun t : Ω × (D → Answer c) =>
        AllHashed (shaGroup c q gx gy H sqrt sswu (randomSha c B B₁ D t.2)) ids ∧
        J (hashValues c q gx gy H sqrt sswu (randomSha c B B₁ D t.2) ids))
  have b2 := pr_not (fun t : Ω × (Fin N → Draw E) => J (hashes E (oddY c) t.2))
  have b3 : pr (fun t : Ω × (Fin N → Draw E) => ¬ J (hashes E (oddY c) t.2)) =
      pr (fun r : Fin N → Draw E => ¬ J (hashes E (oddY c) r)) := by
    rw [pr_swap fun (_ : Ω) (r : Fin N → Draw E) => ¬ J (hashes E (oddY c) r)]
    exact pr_fst (β := Ω) fun r : Fin N → Draw E => ¬ J (hashes E (oddY c) r)
  have b4 : |prob R - prob (fun t : Ω × (D → Answer c) =>
        AllHashed (shaGroup c q gx gy H sqrt sswu (randomSha c B B₁ D t.2)) ids ∧
        Q t.1 t.2 (hashValues c q gx gy H sqrt sswu (randomSha c B B₁ D t.2) ids))| ≤
      prob (fun t : Ω × (D → Answer c) =>
        ¬ (AllHashed (shaGroup c q gx gy H sqrt sswu (randomSha c B B₁ D t.2)) ids ∧
        J (hashValues c q gx gy H sqrt sswu (randomSha c B B₁ D t.2) ids))) := by
    refine prob_diff_le ?_
    rintro ⟨ω, f⟩ hb
    rw [not_not] at hb
    rw [hRQ ω f hb.1 hb.2]
    exact ⟨fun h => ⟨hb.1, h⟩, fun h => h.2⟩
  simp only [prob_pr] at t1 t2 b1 b2 b3 b4 ⊢
  have t2' : |pr (fun t : Ω × (D → Answer c) =>
        AllHashed (shaGroup c q gx gy H sqrt sswu (randomSha c B B₁ D t.2)) ids ∧
        J (hashValues c q gx gy H sqrt sswu (randomSha c B B₁ D t.2) ids)) -
      pr (fun t : Ω × (Fin N → Draw E) => J (hashes E (oddY c) t.2))| ≤ N / 2 ^ 126 := t2
  have e : (N : ℚ) / 2 ^ 125 = N / 2 ^ 126 + N / 2 ^ 126 := by ring
  rw [e]
  have c1 := abs_le.1 t1
  have c2 := abs_le.1 t2'
  have c4 := abs_le.1 b4
  rw [abs_le]
  constructor <;> linarith only [b1, b2, b3, c1.1, c1.2, c2.1, c2.2, c4.1, c4.2]

/-! ### Algorithms that draw a table -/

section
variable {G : Type} [AddCommGroup G] [DecidableEq G] {X C : Type} [Fintype X] [Fintype C]

/-- The algorithm that first draws `x` and then goes on with `A x`. -/
def mixed (A : X → DdhAlg G C) : DdhAlg G (X × C) := fun P Q R t => A t.1 P Q R t.2

instance (A : X → DdhAlg G C) [∀ x P Q R t, Decidable (A x P Q R t)] (P Q R : G) (t : X × C) :
    Decidable (mixed A P Q R t) := by unfold mixed; infer_instance

/-- The same for algorithms against composite residuosity. -/
def mixedDcr {n s : Nat} (A : X → DcrAlg n s C) : DcrAlg n s (X × C) := fun z t => A t.1 z t.2

instance {n s : Nat} (A : X → DcrAlg n s C) [∀ x z t, Decidable (A x z t)] (z : ZMod (n ^ (s + 1)))
    (t : X × C) : Decidable (mixedDcr A z t) := by unfold mixedDcr; infer_instance

theorem pr_mean {α : Type} [Fintype α] (S : α → X → C → Prop) :
    pr (fun t : α × X × C => S t.1 t.2.1 t.2.2) = (∑ x, pr fun t : α × C => S t.1 x t.2) / Fintype.card X := by
  let e : α × X × C ≃ X × α × C :=
    ⟨fun t => (t.2.1, t.1, t.2.2), fun t => (t.2.1, t.1, t.2.2), fun _ => rfl, fun _ => rfl⟩
  rw [← pr_prod fun (x : X) (t : α × C) => S t.1 x t.2, ← pr_equiv e]
  rfl

theorem mixed_adv (E : EcGroup G) (A : X → DdhAlg G C) [∀ x P Q R t, Decidable (A x P Q R t)] :
    ddhAdv E (mixed A) = (∑ x, ddhAdv E (A x)) / Fintype.card X := by
  unfold ddhAdv ddhReal ddhRand
  simp only [prob_pr]
  rw [sum_sub_distrib, sub_div, ← pr_mean fun (t : Draw E × Draw E × Draw E) x (a : C) =>
    A x (t.1.point E) (t.2.1.point E) (t.2.2.point E) a]
  congr 1
  have := pr_mean fun (t : Draw E × Draw E) (x : X) (a : C) =>
    A x (t.1.point E) (t.2.point E) (t.1.scalar • t.2.point E) a
  have e1 : pr (fun t : Draw E × Draw E × X × C => mixed A (t.1.point E) (t.2.1.point E)
      (t.1.scalar • t.2.1.point E) t.2.2) = pr (fun t : (Draw E × Draw E) × X × C =>
      A t.2.1 (t.1.1.point E) (t.1.2.point E) (t.1.1.scalar • t.1.2.point E) t.2.2) := by
    rw [← pr_equiv (Equiv.prodAssoc _ _ _) (fun t : Draw E × Draw E × X × C => mixed A (t.1.point E)
      (t.2.1.point E) (t.1.scalar • t.2.1.point E) t.2.2)]
    rfl
  rw [e1, this]
  congr 1
  refine sum_congr rfl fun x _ => ?_
  rw [← pr_equiv (Equiv.prodAssoc _ _ _) (fun t : Draw E × Draw E × C => A x (t.1.point E)
      (t.2.1.point E) (t.1.scalar • t.2.1.point E) t.2.2)]
  rfl

theorem mixedDcr_adv {n s : Nat} [NeZero n] (A : X → DcrAlg n s C) [∀ x z t, Decidable (A x z t)] :
    dcrAdv n s (mixedDcr A) = (∑ x, dcrAdv n s (A x)) / Fintype.card X := by
  unfold dcrAdv dcrReal dcrRand
  simp only [prob_pr]
  rw [sum_sub_distrib, sub_div, ← pr_mean fun (t : (ZMod n)ˣ) x (a : C) => A x (residue n s t) a,
    ← pr_mean fun (t : (ZMod (n ^ (s + 1)))ˣ) x (a : C) => A x (t : ZMod (n ^ (s + 1))) a]
  rfl
end

/-! ### The advantages, without bounds -/

section
variable {G : Type} [AddCommGroup G] [DecidableEq G]

/-- C106 for two clients, with the sum of the advantages in place of a bound. -/
theorem two_clients_exact (E : EcGroup G) [hE : Fact E.Lawful] (flip : G → Bool) {N M : Nat}
    (ids : Fin N → Bytes) (hids : Function.Injective ids) (own els els' : List (Fin N))
    (ho : own.Nodup) (hnd : els.Nodup) (hnd' : els'.Nodup)
    (hpat : els.map (fun i => decide (i ∈ own)) = els'.map (fun i => decide (i ∈ own)))
    (hlen : els.length = M) {p q : Nat} [NeZero (p * q)] (hk : GoodPrimes p q) (v v' : Fin M → Nat)
    (hv : ∀ i, v i < (p * q) ^ 2) (hv' : ∀ i, v' i < (p * q) ^ 2) (cfg cfg' : ExpCfg)
    (r1 r1' : ServerRand) (sort : List EncElement → List EncElement) (hsort : IsSort sort)
    (sk : PrivatePaillier) (hsk : PrivatePaillier.new cfg p q 2 = .ok sk) (ws : Draw E)
    (S : (Fin N → G) → Option ClientRoundOne → Prop) [∀ h m, Decidable (S h m)] :
    prob (fun t : (Fin M → PDraw p q) × Draw E × (Fin N → Draw E) => S (hashes E flip t.2.2)
        (clientSendsAll E flip ids own els v p q cfg cfg' r1 sort ws t.1 t.2.1 t.2.2)) -
      prob (fun t : (Fin M → PDraw p q) × Draw E × (Fin N → Draw E) => S (hashes E flip t.2.2)
        (clientSendsAll E flip ids own els' v' p q cfg cfg' r1' sort ws t.1 t.2.1 t.2.2)) =
      (∑ j, ddhAdv E (ddhAlgWith E flip (askPoints E own els v p q sk sort ws S) j) +
        ∑ j, dcrAdv (p * q) 2 (dcrAlg (p * q) 2 v (askCts E flip own els (p * q) sort ws S) j)) -
      (∑ j, ddhAdv E (ddhAlgWith E flip (askPoints E own els' v' p q sk sort ws S) j) +
        ∑ j, dcrAdv (p * q) 2 (dcrAlg (p * q) 2 v' (askCts E flip own els' (p * q) sort ws S) j)) := by
  have hl : els.length = els'.length := by simpa using congrArg List.length hpat
  have h1 := C106_client_message E flip ids hids own els hlen hk v hv cfg cfg' r1 sort sk hsk ws S
  have h2 := C106_client_message E flip ids hids own els' (hl ▸ hlen) hk v' hv' cfg cfg' r1' sort sk
    hsk ws S
  have hideal : prob (fun t : Coins E N × (Fin M → (ZMod ((p * q) ^ (2 + 1)))ˣ) =>
        askCts E flip own els (p * q) sort ws S t.1 fun i => (t.2 i : ZMod ((p * q) ^ (2 + 1)))) =
      prob (fun t : Coins E N × (Fin M → (ZMod ((p * q) ^ (2 + 1)))ˣ) =>
        askCts E flip own els' (p * q) sort ws S t.1 fun i => (t.2 i : ZMod ((p * q) ^ (2 + 1)))) := by
    have swap : ∀ l : List (Fin N), prob (fun t : Coins E N × (Fin M → (ZMod ((p * q) ^ (2 + 1)))ˣ) =>
        askCts E flip own l (p * q) sort ws S t.1 fun i => (t.2 i : ZMod ((p * q) ^ (2 + 1)))) =
        (∑ u : Fin M → (ZMod ((p * q) ^ (2 + 1)))ˣ, prob (fun k : Coins E N =>
          askCts E flip own l (p * q) sort ws S k fun i => (u i : ZMod ((p * q) ^ (2 + 1))))) /
        Fintype.card (Fin M → (ZMod ((p * q) ^ (2 + 1)))ˣ) := by
      intro l
      rw [prob_comm (fun (k : Coins E N) (u : Fin M → (ZMod ((p * q) ^ (2 + 1)))ˣ) =>
        askCts E flip own l (p * q) sort ws S k fun i => Units.val (u i)),
        prob_prod (fun (u : Fin M → (ZMod ((p * q) ^ (2 + 1)))ˣ) (k : Coins E N) =>
        askCts E flip own l (p * q) sort ws S k fun i => Units.val (u i))]
    rw [swap els, swap els']
    congr 1
    refine Finset.sum_congr rfl fun u _ => ?_
    exact clientMessage_alike E flip ho hnd hnd' hpat (p * q) hsort _ ws S
  rw [hideal] at h1
  linarith only [h1, h2]

/-- C107 for two servers, with the sum of the advantages in place of a bound: if they are at most `x`, so is
the difference, up to the two other terms. -/
theorem two_servers_exact (E : EcGroup G) [hE : Fact E.Lawful] (flip : G → Bool) {N : Nat}
    (ids : Fin N → Bytes) (hids : Function.Injective ids) (own own' els : List (Fin N))
    (ho : own.Nodup) (ho' : own'.Nodup) (holen : own.length = own'.length)
    (hnd : els.Nodup) (vals : List Int) {p q : Nat} (hk : GoodPrimes p q) (p5 : p ≠ 5) (q5 : q ≠ 5)
    (hlen : vals.length = els.length)
    (hvals : ∀ v ∈ vals, 0 ≤ v ∧ v < ((p * q : Nat) : Int) ^ 2) (cfg cfg' : ExpCfg)
    (r1 r1' r2 r2' : ServerRand) (hr2 : r2.Ok) (hr2' : r2'.Ok) (k1 : ClientRand) (hk1 : k1.Ok)
    (sk : PrivatePaillier) (hsk : PrivatePaillier.new cfg p q 2 = .ok sk) (wc : Draw E)
    (T T' : List (Fin N × Int × Int)) (hT : T = commonEntries sk own els vals k1.draws)
    (hT' : T' = commonEntries sk own' els vals k1.draws)
    (hsize : T.length = T'.length)
    (hsum : (T.map fun t => t.2.1).sum ≡ (T'.map fun t => t.2.1).sum
      [ZMOD ((p * q : Nat) : Int) ^ 2])
    (hsym : (T.map fun t => jacobiSym t.2.2 (p * q)).prod =
      (T'.map fun t => jacobiSym t.2.2 (p * q)).prod)
    (S : (Fin N → G) → Option (List ServerMsg × List ServerMsg) → Prop) [∀ h m, Decidable (S h m)] :
    |prob (fun t : PaillierDraws (p * q) × Draw E × (Fin N → Draw E) => S (hashes E flip t.2.2)
        (clientView E flip ids own els vals p q cfg cfg' r1 r2 k1 wc t.1 t.2.1 t.2.2)) -
      prob (fun t : PaillierDraws (p * q) × Draw E × (Fin N → Draw E) => S (hashes E flip t.2.2)
        (clientView E flip ids own' els vals p q cfg cfg' r1' r2' k1 wc t.1 t.2.1 t.2.2)) -
      (∑ j, ddhAdv E (ddhAlgWith E flip (askView E own (p * q) T S) j) -
        ∑ j, ddhAdv E (ddhAlgWith E flip (askView E own' (p * q) T' S) j))| ≤
      2 * ((N : ℚ) ^ 2 / ((E.order - 1 : Nat) : ℚ)) +
        ((3 * (p + q) : Nat) : ℚ) / (((p - 1) * (q - 1) : Nat) : ℚ) := by
  have h1 := C107_client_view E flip ids hids own els hnd vals hk hlen hvals cfg cfg' r1 r2 hr2 k1
    hk1 sk hsk wc S
  have h2 := C107_client_view E flip ids hids own' els hnd vals hk hlen hvals cfg cfg' r1' r2' hr2'
    k1 hk1 sk hsk wc S
  simp only [← hT] at h1
  simp only [← hT'] at h2
  obtain ⟨π, hπ⟩ := exists_perm_map ho ho' holen
  have p3 : 3 < p := by
    have := hk.two_lt_p; have := hk.safe_p.2.1; have := hk.safe_p.2.2.two_le; omega
  have q3 : 3 < q := by
    have := hk.two_lt_q; have := hk.safe_q.2.1; have := hk.safe_q.2.2.two_le; omega
  -- the first message
  have first : prob (fun t : PaillierDraws (p * q) × Coins E N => S (hashes E flip t.2.1)
        (some (firstMessage E own fun i => (t.2.2 i).point E, answer (p * q) T t.1))) =
      prob (fun t : PaillierDraws (p * q) × Coins E N => S (hashes E flip t.2.1)
        (some (firstMessage E own' fun i => (t.2.2 i).point E, answer (p * q) T t.1))) := by
    rw [← prob_equiv (Equiv.prodCongr (Equiv.refl (PaillierDraws (p * q)))
      (Equiv.prodCongr (Equiv.refl (Fin N → Draw E)) (Equiv.arrowCongr π (Equiv.refl (Draw E)))))]
    apply prob_congr
    rintro ⟨d, r, c⟩
    have e : (firstMessage E own fun i =>
        ((Equiv.arrowCongr π (Equiv.refl (Draw E))) c i).point E) =
        firstMessage E own' fun i => (c i).point E := by
      simp only [firstMessage, ← hπ, List.map_map]
      congr 2
      refine List.map_congr_left fun i _ => ?_
      simp [Equiv.arrowCongr]
    show S (hashes E flip r) (some (firstMessage E own fun i =>
        ((Equiv.arrowCongr π (Equiv.refl (Draw E))) c i).point E, _)) ↔ _
    rw [e]
    rfl
  -- the answer
  have hclose : StatClose (PaillierDraws (p * q)) (fun d => answer (p * q) T d)
      (fun d => answer (p * q) T' d) (3 * (p + q)) ((p - 1) * (q - 1)) := by
    obtain ⟨c1, c2⟩ := commonEntries_ct hk hsk own els hvals hk1.draws
    obtain ⟨c1', c2'⟩ := commonEntries_ct hk hsk own' els hvals hk1.draws
    rw [← hT] at c1 c2
    rw [← hT'] at c1' c2'
    have dp : ((p : Int)) ^ 2 ∣ ((p * q : Nat) : Int) ^ 2 :=
      pow_dvd_pow_of_dvd (by push_cast; exact Dvd.intro _ rfl) 2
    have dq : ((q : Int)) ^ 2 ∣ ((p * q : Nat) : Int) ^ 2 :=
      pow_dvd_pow_of_dvd (by push_cast; exact Dvd.intro_left _ rfl) 2
    have := masked_close hk.safe_p hk.safe_q p5 q5 p3 q3 hk.ne c1 c2
      (CtI.congr_msg c1' (hsum.symm.of_dvd dp)) (CtI.congr_msg c2' (hsum.symm.of_dvd dq))
      ((jac_prod _ _ T).trans (hsym.trans (jac_prod _ _ T').symm))
    refine this.map (fun x => [.roundTwo ⟨T.length, BN.natToBytes x.toNat⟩]) (fun d _ => rfl)
      (fun d _ => ?_)
    rw [answer, hsize]
  have second : |prob (fun t : PaillierDraws (p * q) × Coins E N => S (hashes E flip t.2.1)
        (some (firstMessage E own' fun i => (t.2.2 i).point E, answer (p * q) T t.1))) -
      prob (fun t : PaillierDraws (p * q) × Coins E N => S (hashes E flip t.2.1)
        (some (firstMessage E own' fun i => (t.2.2 i).point E, answer (p * q) T' t.1)))| ≤
      ((3 * (p + q) : Nat) : ℚ) / (((p - 1) * (q - 1) : Nat) : ℚ) := by
    rw [prob_comm (fun (d : PaillierDraws (p * q)) (t : Coins E N) => S (hashes E flip t.1)
        (some (firstMessage E own' fun i => (t.2 i).point E, answer (p * q) T d))),
      prob_comm (fun (d : PaillierDraws (p * q)) (t : Coins E N) => S (hashes E flip t.1)
        (some (firstMessage E own' fun i => (t.2 i).point E, answer (p * q) T' d)))]
    refine prob_prod_close (S := fun (t : Coins E N) (d : PaillierDraws (p * q)) =>
        S (hashes E flip t.1)
          (some (firstMessage E own' fun i => (t.2 i).point E, answer (p * q) T d)))
      (T := fun (t : Coins E N) (d : PaillierDraws (p * q)) => S (hashes E flip t.1)
          (some (firstMessage E own' fun i => (t.2 i).point E, answer (p * q) T' d)))
      (by positivity) fun t => ?_
    exact prob_of_close (Nat.mul_pos (by omega) (by omega)) hclose fun a => S (hashes E flip t.1)
      (some (firstMessage E own' fun i => (t.2 i).point E, a))
  rw [first] at h1
  have b3 := abs_le.1 h1
  have b4 := abs_le.1 h2
  have b5 := abs_le.1 second
  rw [abs_le]
  constructor <;> linarith only [b3.1, b3.2, b4.1, b4.2, b5.1, b5.2]
end

/-! ### C140 -/

variable (c q) in
/-- The question `S` about SHA-256 and the messages, when the table is changed to have the hash values `g`. -/
def asked {T : Type} (sqrt : BigNum → BigNum → Res BigNum) (B : Bytes → Bytes) (B₁ : Bytes → Answer c)
    {D : Finset Bytes} {N : Nat} (ids : Fin N → Bytes) (S : (Bytes → Bytes) → T → Prop)
    (x : Tables c q sqrt D N) (g : Fin N → (c.W q).Point) (m : T) : Prop :=
  S (randomSha c B B₁ D (changed c q sqrt B₁ ids x g)) m

noncomputable instance {T : Type} (sqrt : BigNum → BigNum → Res BigNum) (B : Bytes → Bytes)
    (B₁ : Bytes → Answer c)
    {D : Finset Bytes} {N : Nat} (ids : Fin N → Bytes) (S : (Bytes → Bytes) → T → Prop)
    [∀ f m, Decidable (S f m)] (x : Tables c q sqrt D N) (g : Fin N → (c.W q).Point) (m : T) :
    Decidable (asked c q sqrt B B₁ ids S x g m) := by unfold asked; infer_instance

theorem sum_bound {L : Nat} {x : ℚ} {f : Fin L → ℚ} (hf : ∀ j, |f j| ≤ x) : |∑ j, f j| ≤ L * x := by
  refine (abs_sum_le_sum_abs _ _).trans ((sum_le_sum fun j _ => hf j).trans ?_)
  simp

theorem pr_coins {Ω X Z : Type} [Fintype Ω] [Fintype X] [Fintype Z] (S : X → Ω × Z → Prop) :
    pr (fun t : (Ω × X) × Z => S t.1.2 (t.1.1, t.2)) = (∑ x, pr (S x)) / Fintype.card X := by
  let e : (Ω × X) × Z ≃ X × Ω × Z :=
    ⟨fun t => (t.1.2, t.1.1, t.2), fun t => ((t.2.1, t.1), t.2.2), fun _ => rfl, fun _ => rfl⟩
  rw [← pr_prod S, ← pr_equiv e]
  rfl

/-- **C140**, what the server learns from the client's message, when SHA-256 is a random function that the
server can evaluate: two clients whose identifiers meet the server's list at the same positions are not told
apart with an advantage above `2 N δ + 2 M ε + N / 2 ^ 124`, if `δ` bounds the Diffie-Hellman advantages and
`ε` the composite residuosity advantages of explicit algorithms that draw the table themselves. -/
theorem C140_two_clients (h : Named c q gx gy) {sqrt : BigNum → BigNum → Res BigNum} (hs : SqrtOk sqrt q)
    (H : Hashes) (sswu : Bytes → Bytes → Res (c.W q).Point) (B : Bytes → Bytes) {N M : Nat} (hN : N ≤ 2 ^ 55)
    (ids : Fin N → Bytes) (hids : Function.Injective ids) (D : Finset Bytes) (hm : ∀ i, ids i ∈ D)
    (hD : ∀ v < q, BN.natToBytes v ∈ D) (B₁ : Bytes → Answer c)
    (own els els' : List (Fin N)) (ho : own.Nodup) (hnd : els.Nodup) (hnd' : els'.Nodup)
    (hpat : els.map (fun i => decide (i ∈ own)) = els'.map (fun i => decide (i ∈ own)))
    (hlen : els.length = M) {p₁ p₂ : Nat} [NeZero (p₁ * p₂)] (hk : GoodPrimes p₁ p₂) (v v' : Fin M → Nat)
    (hv : ∀ i, v i < (p₁ * p₂) ^ 2) (hv' : ∀ i, v' i < (p₁ * p₂) ^ 2) (cfg cfg' : ExpCfg)
    (r1 r1' : ServerRand) (sort : List EncElement → List EncElement) (hsort : IsSort sort)
    (sk : PrivatePaillier) (hsk : PrivatePaillier.new cfg p₁ p₂ 2 = .ok sk)
    (E : EcGroup (c.W q).Point) (hE : E = shaGroup c q gx gy H sqrt sswu H.sha256) (ws : Draw E)
    (S : (Bytes → Bytes) → Option ClientRoundOne → Prop) [∀ f m, Decidable (S f m)] (δ ε : ℚ)
    (hδ : ∀ j, |ddhAdv E (mixed fun x : Tables c q sqrt D N => ddhAlgWith E (oddY c)
      (askPoints E own els v p₁ p₂ sk sort ws (asked c q sqrt B B₁ ids S x)) j)| ≤ δ)
    (hδ' : ∀ j, |ddhAdv E (mixed fun x : Tables c q sqrt D N => ddhAlgWith E (oddY c)
      (askPoints E own els' v' p₁ p₂ sk sort ws (asked c q sqrt B B₁ ids S x)) j)| ≤ δ)
    (hε : ∀ j, |dcrAdv (p₁ * p₂) 2 (mixedDcr fun x : Tables c q sqrt D N => dcrAlg (p₁ * p₂) 2 v
      (askCts E (oddY c) own els (p₁ * p₂) sort ws (asked c q sqrt B B₁ ids S x)) j)| ≤ ε)
    (hε' : ∀ j, |dcrAdv (p₁ * p₂) 2 (mixedDcr fun x : Tables c q sqrt D N => dcrAlg (p₁ * p₂) 2 v'
      (askCts E (oddY c) own els' (p₁ * p₂) sort ws (asked c q sqrt B B₁ ids S x)) j)| ≤ ε) :
    |prob (fun t : ((Fin M → PDraw p₁ p₂) × Draw E) × (D → Answer c) => S (randomSha c B B₁ D t.2)
          (clientRun (shaGroup c q gx gy H sqrt sswu (randomSha c B B₁ D t.2)) (els.map ids) (own.map ids)
            (valueList v) p₁ p₂ cfg cfg' r1 ⟨drawsOf t.1.1, sort⟩ ws.val t.1.2.val)) -
      prob (fun t : ((Fin M → PDraw p₁ p₂) × Draw E) × (D → Answer c) => S (randomSha c B B₁ D t.2)
          (clientRun (shaGroup c q gx gy H sqrt sswu (randomSha c B B₁ D t.2)) (els'.map ids) (own.map ids)
            (valueList v') p₁ p₂ cfg cfg' r1' ⟨drawsOf t.1.1, sort⟩ ws.val t.1.2.val))| ≤
      2 * N * δ + 2 * M * ε + N / 2 ^ 124 := by
  subst hE
  have hl : els.length = els'.length := by simpa using congrArg List.length hpat
  have lawful := shaGroup_lawful h H sqrt sswu H.sha256
  generalize hEd : shaGroup c q gx gy H sqrt sswu H.sha256 = E at *
  have ord : E.order = c.order := by rw [← hEd]; rfl
  have : Fact E.Lawful := ⟨lawful⟩
  have key := fun x : Tables c q sqrt D N => two_clients_exact E (oddY c) ids hids own els els' ho hnd
    hnd' hpat hlen hk v v' hv hv' cfg cfg' r1 r1' sort hsort sk hsk ws (asked c q sqrt B B₁ ids S x)
  have hne : Nonempty (Draw E) := ⟨ws⟩
  have hnp : Nonempty (PDraw p₁ p₂) := by
    have := hk.two_lt_p; have := hk.two_lt_q
    exact ⟨⟨0, by omega⟩, ⟨0, by omega⟩⟩
  have side : ∀ (l : List (Fin N)) (u : Fin M → Nat) (r : ServerRand), l.length = M →
      (∀ i, u i < (p₁ * p₂) ^ 2) →
      |pr (fun t : ((Fin M → PDraw p₁ p₂) × Draw E) × (D → Answer c) => S (randomSha c B B₁ D t.2)
          (clientRun (shaGroup c q gx gy H sqrt sswu (randomSha c B B₁ D t.2)) (l.map ids) (own.map ids)
            (valueList u) p₁ p₂ cfg cfg' r ⟨drawsOf t.1.1, sort⟩ ws.val t.1.2.val)) -
      (∑ x : Tables c q sqrt D N, pr (fun t : (Fin M → PDraw p₁ p₂) × Draw E × (Fin N → Draw E) =>
        asked c q sqrt B B₁ ids S x (hashes E (oddY c) t.2.2)
        (clientSendsAll E (oddY c) ids own l u p₁ p₂ cfg cfg' r sort ws t.1 t.2.1 t.2.2))) /
        Fintype.card (Tables c q sqrt D N)| ≤ N / 2 ^ 125 := by
    intro l u r hlM hu
    have hval : ∀ x ∈ valueList u, 0 ≤ x ∧ x < ((p₁ * p₂ : Nat) : Int) ^ 2 := by
      intro x hx
      obtain ⟨i, rfl⟩ := (List.mem_ofFn' _ _).1 hx
      have := hu i
      exact ⟨Int.natCast_nonneg _, show ((u i : Nat) : Int) < _ by exact_mod_cast this⟩
    have hdr : ∀ (d : Fin M → PDraw p₁ p₂) (i : Nat), 0 ≤ (drawsOf d i).1 ∧ 0 ≤ (drawsOf d i).2 := by
      intro d i
      simp only [drawsOf]
      split
      · exact ⟨by simp only [PDraw.pair]; omega, by simp only [PDraw.pair]; omega⟩
      · norm_num
    have rc := real_table h hs H sswu B hN ids hids D hm hD B₁ lawful ord
      (Ω := (Fin M → PDraw p₁ p₂) × Draw E)
      (fun t => S (randomSha c B B₁ D t.2)
          (clientRun (shaGroup c q gx gy H sqrt sswu (randomSha c B B₁ D t.2)) (l.map ids) (own.map ids)
            (valueList u) p₁ p₂ cfg cfg' r ⟨drawsOf t.1.1, sort⟩ ws.val t.1.2.val))
      (fun ω f g => S (randomSha c B B₁ D f) (some (clientMessage E (p₁ * p₂) sort own l
        (ciphertexts sk (valueList u) (drawsOf ω.1)) ws fun i => ω.2.scalar • g i))) (fun _ => True) (by
        intro ω f ha _
        have hv := hashValue_ne h hs H sswu _ ha
        subst hEd
        have e := clientRun_eq (shaGroup_lawful h H sqrt sswu (randomSha c B B₁ D f)) (fun i => (hv i).1)
          (fun i => (hv i).2) own l (valueList u) hk (by simp [valueList, hlM]) hval cfg cfg' r
          ⟨drawsOf ω.1, sort⟩ (hdr ω.1) hsk ws ω.2
        show S _ (clientRun _ _ _ _ _ _ _ _ _ _ _ _) ↔ _
        rw [e]
        exact Iff.rfl)
    have z : pr (fun r : Fin N → Draw E => ¬ (fun _ : Fin N → (c.W q).Point => True)
        (hashes E (oddY c) r)) = 0 := pr_false fun r => by simp
    rw [z, add_zero] at rc
    refine le_trans (le_of_eq ?_) rc
    congr 2
    have pc := pr_coins (Ω := (Fin M → PDraw p₁ p₂) × Draw E) (X := Tables c q sqrt D N)
      (Z := Fin N → Draw E) fun x t => asked c q sqrt B B₁ ids S x (hashes E (oddY c) t.2)
        (clientSendsAll E (oddY c) ids own l u p₁ p₂ cfg cfg' r sort ws t.1.1 t.1.2 t.2)
    have pe : ∀ x : Tables c q sqrt D N, pr (fun t : (Fin M → PDraw p₁ p₂) × Draw E × (Fin N → Draw E) =>
        asked c q sqrt B B₁ ids S x (hashes E (oddY c) t.2.2)
        (clientSendsAll E (oddY c) ids own l u p₁ p₂ cfg cfg' r sort ws t.1 t.2.1 t.2.2)) =
        pr (fun t : ((Fin M → PDraw p₁ p₂) × Draw E) × (Fin N → Draw E) =>
        asked c q sqrt B B₁ ids S x (hashes E (oddY c) t.2)
        (clientSendsAll E (oddY c) ids own l u p₁ p₂ cfg cfg' r sort ws t.1.1 t.1.2 t.2)) := by
      intro x
      rw [← pr_equiv (Equiv.prodAssoc _ _ _) (fun t : (Fin M → PDraw p₁ p₂) × Draw E × (Fin N → Draw E) =>
        asked c q sqrt B B₁ ids S x (hashes E (oddY c) t.2.2)
        (clientSendsAll E (oddY c) ids own l u p₁ p₂ cfg cfg' r sort ws t.1 t.2.1 t.2.2))]
      rfl
    rw [sum_congr rfl fun x _ => pe x, ← pc]
    refine pr_congr fun t => ?_
    have e := clientSends_eq lawful (oddY c) hids own l (valueList u) hk (by simp [valueList, hlM]) hval cfg cfg' r
      ⟨drawsOf t.1.1.1, sort⟩ (hdr t.1.1.1) hsk ws t.1.1.2 t.2
    simp only [clientSendsAll, e, asked]
  have s1 := side els v r1 hlen hv
  have s2 := side els' v' r1' (hl ▸ hlen) hv'
  have mean := congrArg (fun f : Tables c q sqrt D N → ℚ => (∑ x, f x) / Fintype.card (Tables c q sqrt D N))
    (funext key)
  simp only [sum_sub_distrib, sum_add_distrib, sub_div, add_div] at mean
  have sw : ∀ {L : Nat} (F : Tables c q sqrt D N → Fin L → ℚ), (∑ x, ∑ j, F x j) / Fintype.card (Tables c q sqrt D N) =
      ∑ j, (∑ x, F x j) / Fintype.card (Tables c q sqrt D N) := by
    intro L F
    rw [sum_comm, sum_div]
  simp only [sw, ← mixed_adv, ← mixedDcr_adv, prob_pr] at mean
  have b1 := abs_le.1 (sum_bound hδ)
  have b2 := abs_le.1 (sum_bound hδ')
  have b3 := abs_le.1 (sum_bound hε)
  have b4 := abs_le.1 (sum_bound hε')
  have e : (N : ℚ) / 2 ^ 124 = N / 2 ^ 125 + N / 2 ^ 125 := by ring
  rw [e]
  simp only [prob_pr]
  rw [abs_le] at s1 s2 ⊢
  constructor <;> linarith only [mean, s1.1, s1.2, s2.1, s2.2, b1.1, b1.2, b2.1, b2.2, b3.1, b3.2, b4.1, b4.2]

/-- **C140**, what the client learns in a whole run, when SHA-256 is a random function that the client can
evaluate: two servers with equally many identifiers that give the client the same size, sum and product of
Jacobi symbols are not told apart with an advantage above
`2 N δ + N / 2 ^ 123 + 3 (p₁ + p₂) / ((p₁ - 1) (p₂ - 1))`. -/
theorem C140_two_servers (h : Named c q gx gy) {sqrt : BigNum → BigNum → Res BigNum} (hs : SqrtOk sqrt q)
    (H : Hashes) (sswu : Bytes → Bytes → Res (c.W q).Point) (B : Bytes → Bytes) {N : Nat} (hN : N ≤ 2 ^ 55)
    (ids : Fin N → Bytes) (hids : Function.Injective ids) (D : Finset Bytes) (hm : ∀ i, ids i ∈ D)
    (hD : ∀ v < q, BN.natToBytes v ∈ D) (B₁ : Bytes → Answer c)
    (own own' els : List (Fin N)) (ho : own.Nodup) (ho' : own'.Nodup) (holen : own.length = own'.length)
    (hnd : els.Nodup) (vals : List Int) {p₁ p₂ : Nat} (hk : GoodPrimes p₁ p₂) (p5 : p₁ ≠ 5) (q5 : p₂ ≠ 5)
    (hlen : vals.length = els.length)
    (hvals : ∀ v ∈ vals, 0 ≤ v ∧ v < ((p₁ * p₂ : Nat) : Int) ^ 2) (cfg cfg' : ExpCfg)
    (r1 r1' r2 r2' : ServerRand) (hr2 : r2.Ok) (hr2' : r2'.Ok) (k1 : ClientRand) (hk1 : k1.Ok)
    (sk : PrivatePaillier) (hsk : PrivatePaillier.new cfg p₁ p₂ 2 = .ok sk)
    (E : EcGroup (c.W q).Point) (hE : E = shaGroup c q gx gy H sqrt sswu H.sha256) (wc : Draw E)
    (T T' : List (Fin N × Int × Int)) (hT : T = commonEntries sk own els vals k1.draws)
    (hT' : T' = commonEntries sk own' els vals k1.draws)
    (hsize : T.length = T'.length)
    (hsum : (T.map fun t => t.2.1).sum ≡ (T'.map fun t => t.2.1).sum
      [ZMOD ((p₁ * p₂ : Nat) : Int) ^ 2])
    (hsym : (T.map fun t => jacobiSym t.2.2 (p₁ * p₂)).prod =
      (T'.map fun t => jacobiSym t.2.2 (p₁ * p₂)).prod)
    (S : (Bytes → Bytes) → Option (List ServerMsg × List ServerMsg) → Prop)
    [∀ f m, Decidable (S f m)] (δ : ℚ)
    (hδ : ∀ j, |ddhAdv E (mixed fun x : Tables c q sqrt D N => ddhAlgWith E (oddY c)
      (askView E own (p₁ * p₂) T (asked c q sqrt B B₁ ids S x)) j)| ≤ δ)
    (hδ' : ∀ j, |ddhAdv E (mixed fun x : Tables c q sqrt D N => ddhAlgWith E (oddY c)
      (askView E own' (p₁ * p₂) T' (asked c q sqrt B B₁ ids S x)) j)| ≤ δ) :
    |prob (fun t : (PaillierDraws (p₁ * p₂) × Draw E) × (D → Answer c) => S (randomSha c B B₁ D t.2)
          (viewRun (shaGroup c q gx gy H sqrt sswu (randomSha c B B₁ D t.2)) (els.map ids) (own.map ids)
            vals p₁ p₂ cfg cfg' r1 r2 k1 wc.val t.1.1 t.1.2.val)) -
      prob (fun t : (PaillierDraws (p₁ * p₂) × Draw E) × (D → Answer c) => S (randomSha c B B₁ D t.2)
          (viewRun (shaGroup c q gx gy H sqrt sswu (randomSha c B B₁ D t.2)) (els.map ids) (own'.map ids)
            vals p₁ p₂ cfg cfg' r1' r2' k1 wc.val t.1.1 t.1.2.val))| ≤
      2 * N * δ + N / 2 ^ 123 + ((3 * (p₁ + p₂) : Nat) : ℚ) / (((p₁ - 1) * (p₂ - 1) : Nat) : ℚ) := by
  subst hE
  have lawful := shaGroup_lawful h H sqrt sswu H.sha256
  generalize hEd : shaGroup c q gx gy H sqrt sswu H.sha256 = E at *
  have ord : E.order = c.order := by rw [← hEd]; rfl
  have : Fact E.Lawful := ⟨lawful⟩
  have key := fun x : Tables c q sqrt D N => two_servers_exact E (oddY c) ids hids own own' els ho ho'
    holen hnd vals hk p5 q5 hlen hvals cfg cfg' r1 r1' r2 r2' hr2 hr2' k1 hk1 sk hsk wc T T' hT hT' hsize hsum
    hsym (asked c q sqrt B B₁ ids S x)
  have hne : Nonempty (Draw E) := ⟨wc⟩
  have npos : 1 < p₁ * p₂ := by
    have := hk.two_lt_p; have := hk.two_lt_q; nlinarith
  have hnp : Nonempty (PaillierDraws (p₁ * p₂)) := ⟨⟨(1, 0), by
    simp only [PaillierDraws, Finset.mem_product, Finset.mem_filter, Finset.mem_range]
    exact ⟨⟨npos, Nat.coprime_one_right _⟩, by omega⟩⟩⟩
  have small : (N : ℚ) ^ 2 / ((E.order - 1 : Nat) : ℚ) ≤ N / 2 ^ 143 := by
    rw [ord]
    exact collision_small h hN
  have side : ∀ (o : List (Fin N)) (r r' : ServerRand), r'.Ok →
      |pr (fun t : (PaillierDraws (p₁ * p₂) × Draw E) × (D → Answer c) => S (randomSha c B B₁ D t.2)
          (viewRun (shaGroup c q gx gy H sqrt sswu (randomSha c B B₁ D t.2)) (els.map ids) (o.map ids)
            vals p₁ p₂ cfg cfg' r r' k1 wc.val t.1.1 t.1.2.val)) -
      (∑ x : Tables c q sqrt D N, pr (fun t : PaillierDraws (p₁ * p₂) × Draw E × (Fin N → Draw E) =>
        asked c q sqrt B B₁ ids S x (hashes E (oddY c) t.2.2)
        (clientView E (oddY c) ids o els vals p₁ p₂ cfg cfg' r r' k1 wc t.1 t.2.1 t.2.2))) /
        Fintype.card (Tables c q sqrt D N)| ≤ N / 2 ^ 125 + N / 2 ^ 143 := by
    intro o r r' hr'
    have rc := real_table h hs H sswu B hN ids hids D hm hD B₁ lawful ord
      (Ω := PaillierDraws (p₁ * p₂) × Draw E)
      (fun t => S (randomSha c B B₁ D t.2)
          (viewRun (shaGroup c q gx gy H sqrt sswu (randomSha c B B₁ D t.2)) (els.map ids) (o.map ids)
            vals p₁ p₂ cfg cfg' r r' k1 wc.val t.1.1 t.1.2.val))
      (fun ω f g => S (randomSha c B B₁ D f) (viewRun (withOracle E ids g) (els.map ids)
        (o.map ids) vals p₁ p₂ cfg cfg' r r' k1 wc.val ω.1 ω.2.val)) (fun g => Function.Injective g) (by
        intro ω f ha hinj
        have hv := hashValue_ne h hs H sswu _ ha
        subst hEd
        have e := viewRun_eq (shaGroup_lawful h H sqrt sswu (randomSha c B B₁ D f)) hids (fun i => (hv i).1)
          (fun i => (hv i).2) hinj o els hnd vals hk hlen hvals cfg cfg' r r' hr' k1 hk1 hsk wc ω.2 ω.1.2
        have e' := viewRun_eq (withOracle_lawful lawful ids
            (hashValues c q gx gy H sqrt sswu (randomSha c B B₁ D f) ids)) hids
          (fun i => withOracle_hash _ hids _ i)
          (fun i => (hv i).2) hinj o els hnd vals hk hlen hvals cfg cfg' r r' hr' k1 hk1 hsk wc ω.2 ω.1.2
        show S _ (viewRun _ _ _ _ _ _ _ _ _ _ _ _ _ _) ↔ S _ (viewRun _ _ _ _ _ _ _ _ _ _ _ _ _ _)
        rw [e, e']
        exact Iff.rfl)
    have z := collision E (oddY c) (N := N)
    have z' := z.trans small
    simp only [prob_pr] at z'
    refine le_trans (le_of_eq ?_) (le_trans rc (by linarith only [z']))
    congr 2
    have pc := pr_coins (Ω := PaillierDraws (p₁ * p₂) × Draw E) (X := Tables c q sqrt D N)
      (Z := Fin N → Draw E) fun x t => asked c q sqrt B B₁ ids S x (hashes E (oddY c) t.2)
        (clientView E (oddY c) ids o els vals p₁ p₂ cfg cfg' r r' k1 wc t.1.1 t.1.2 t.2)
    have pe : ∀ x : Tables c q sqrt D N, pr (fun t : PaillierDraws (p₁ * p₂) × Draw E × (Fin N → Draw E) =>
        asked c q sqrt B B₁ ids S x (hashes E (oddY c) t.2.2)
        (clientView E (oddY c) ids o els vals p₁ p₂ cfg cfg' r r' k1 wc t.1 t.2.1 t.2.2)) =
        pr (fun t : (PaillierDraws (p₁ * p₂) × Draw E) × (Fin N → Draw E) =>
        asked c q sqrt B B₁ ids S x (hashes E (oddY c) t.2)
        (clientView E (oddY c) ids o els vals p₁ p₂ cfg cfg' r r' k1 wc t.1.1 t.1.2 t.2)) := by
      intro x
      rw [← pr_equiv (Equiv.prodAssoc _ _ _) (fun t : PaillierDraws (p₁ * p₂) × Draw E × (Fin N → Draw E) =>
        asked c q sqrt B B₁ ids S x (hashes E (oddY c) t.2.2)
        (clientView E (oddY c) ids o els vals p₁ p₂ cfg cfg' r r' k1 wc t.1 t.2.1 t.2.2))]
      rfl
    rw [sum_congr rfl fun x _ => pe x, ← pc]
    rfl
  have s1 := side own r1 r2 hr2
  have s2 := side own' r1' r2' hr2'
  have : Nonempty (hashPoints c q) := by
    obtain ⟨z, -⟩ := signed_pt h (Draw.point_ne lawful ⟨0, by have := lawful.prime.two_le; omega⟩)
    exact ⟨z⟩
  have : Nonempty (Tables c q sqrt D N) := by
    refine ⟨fun x => B₁ x, fun _ w => ?_⟩
    have hw : w.1.1 < q := mem_range.1 (mem_product.1 (mem_filter.1 w.2).1).1
    obtain ⟨hp, hq, -, -, -⟩ := C111_prime_order h
    have hqq : (0 : ℚ) < q := by exact_mod_cast hq.pos
    have hpos : 0 < pr (fun y : Answer c => number c.p y = w.1.1) :=
      lt_of_lt_of_le (div_pos (by norm_num) hqq) (number_close hp hw).1
    have hex : ∃ y : Answer c, number c.p y = w.1.1 := by
      by_contra hno
      rw [not_exists] at hno
      rw [pr_false hno] at hpos
      exact lt_irrefl _ hpos
    exact ⟨hex.choose, (accepts_iff h.certified.proper hs (number_lt hp _) w).2 hex.choose_spec⟩
  have hX : (0 : ℚ) < Fintype.card (Tables c q sqrt D N) := by exact_mod_cast Fintype.card_pos
  have mean := (abs_sum_le_sum_abs _ univ).trans (sum_le_sum fun x _ => key x)
  rw [sum_const, card_univ, nsmul_eq_mul, ← div_le_iff₀' hX] at mean
  rw [← Nat.abs_cast (Fintype.card (Tables c q sqrt D N)), ← abs_div] at mean
  have mean' := mean
  simp only [sum_sub_distrib, sub_div] at mean'
  have sw : ∀ {L : Nat} (F : Tables c q sqrt D N → Fin L → ℚ), (∑ x, ∑ j, F x j) / Fintype.card (Tables c q sqrt D N) =
      ∑ j, (∑ x, F x j) / Fintype.card (Tables c q sqrt D N) := by
    intro L F
    rw [sum_comm, sum_div]
  simp only [sw, ← mixed_adv, prob_pr] at mean'
  have b1 := abs_le.1 (sum_bound hδ)
  have b2 := abs_le.1 (sum_bound hδ')
  have e : (N : ℚ) / 2 ^ 123 = (N / 2 ^ 125 + N / 2 ^ 125) + (N / 2 ^ 125 + N / 2 ^ 125) := by ring
  have small' : (N : ℚ) / 2 ^ 143 ≤ N / 2 ^ 125 / 8 := by
    have : (N : ℚ) / 2 ^ 143 = N / 2 ^ 125 / 2 ^ 18 := by ring
    rw [this]
    exact div_le_div_of_nonneg_left (by positivity) (by norm_num) (by norm_num)
  rw [e]
  have h0 : (0 : ℚ) ≤ N / 2 ^ 125 := by positivity
  simp only [prob_pr]
  rw [abs_le] at mean' s1 s2 ⊢
  constructor <;> linarith only [mean'.1, mean'.2, s1.1, s1.2, s2.1, s2.2, b1.1, b1.2, b2.1, b2.2, small,
    small', h0]

/-! ### Examples -/

/-- The clients of the example of C106 on a named curve, with different identifiers and values. -/
theorem clients_example (h : Named c q gx gy) {sqrt : BigNum → BigNum → Res BigNum} (hs : SqrtOk sqrt q)
    (H : Hashes) (sswu : Bytes → Bytes → Res (c.W q).Point) (cfg : ExpCfg) (r1 : ServerRand)
    (sk : PrivatePaillier) (hsk : PrivatePaillier.new cfg (7 : Nat) (11 : Nat) 2 = .ok sk)
    (E : EcGroup (c.W q).Point) (hE : E = shaGroup c q gx gy H sqrt sswu H.sha256) (ws : Draw E)
    (S : (Bytes → Bytes) → Option ClientRoundOne → Prop) [∀ f m, Decidable (S f m)] :
    ∃ D : Finset Bytes,
    |prob (fun t : ((Fin 3 → PDraw 7 11) × Draw E) × (D → Answer c) =>
        S (randomSha c id (fun _ _ _ => 0) D t.2)
          (clientRun (shaGroup c q gx gy H sqrt sswu (randomSha c id (fun _ _ _ => 0) D t.2))
            ([0, 1, 3].map (toyIds 4)) ([1].map (toyIds 4)) (valueList ![5, 9, 2]) 7 11 cfg cfg r1
            ⟨drawsOf t.1.1, insSort⟩ ws.val t.1.2.val)) -
      prob (fun t : ((Fin 3 → PDraw 7 11) × Draw E) × (D → Answer c) =>
        S (randomSha c id (fun _ _ _ => 0) D t.2)
          (clientRun (shaGroup c q gx gy H sqrt sswu (randomSha c id (fun _ _ _ => 0) D t.2))
            ([2, 1, 0].map (toyIds 4)) ([1].map (toyIds 4)) (valueList ![7, 7, 7]) 7 11 cfg cfg r1
            ⟨drawsOf t.1.1, insSort⟩ ws.val t.1.2.val))| ≤
      2 * (4 : Nat) * 1 + 2 * (3 : Nat) * 1 + (4 : Nat) / 2 ^ 124 := by
  obtain ⟨D, d1, d2⟩ := table_domain q (toyIds 4)
  exact ⟨D, C140_two_clients h hs H sswu id (by norm_num) (toyIds 4) toyIds_inj D d1 d2 _ [1] [0, 1, 3] [2, 1, 0]
    (by decide) (by decide) (by decide) (by decide) rfl goodPrimes_toy ![5, 9, 2] ![7, 7, 7] (by decide)
    (by decide) cfg cfg r1 r1 insSort insSort_isSort sk hsk E hE ws S 1 1
    (fun _ => abs_prob_sub_le_one _ _) (fun _ => abs_prob_sub_le_one _ _)
    (fun _ => abs_prob_sub_le_one _ _) (fun _ => abs_prob_sub_le_one _ _)⟩

/-- The servers of the example of C107 on a named curve: one has the identifiers 0 and 2, the other 1
and 3, and the client has 0 and 1, both with the value 5. -/
theorem servers_example (h : Named c q gx gy) {sqrt : BigNum → BigNum → Res BigNum} (hs : SqrtOk sqrt q)
    (H : Hashes) (sswu : Bytes → Bytes → Res (c.W q).Point) (cfg : ExpCfg) (r1 : ServerRand)
    (sk : PrivatePaillier) (hsk : PrivatePaillier.new cfg (7 : Nat) (11 : Nat) 2 = .ok sk)
    (E : EcGroup (c.W q).Point) (hE : E = shaGroup c q gx gy H sqrt sswu H.sha256) (wc : Draw E)
    (S : (Bytes → Bytes) → Option (List ServerMsg × List ServerMsg) → Prop)
    [∀ f m, Decidable (S f m)] :
    let k1 : ClientRand := ⟨fun i => if i = 0 then (3, 1) else (1, 1), insSort⟩
    ∃ D : Finset Bytes,
    |prob (fun t : (PaillierDraws (7 * 11) × Draw E) × (D → Answer c) =>
        S (randomSha c id (fun _ _ _ => 0) D t.2)
          (viewRun (shaGroup c q gx gy H sqrt sswu (randomSha c id (fun _ _ _ => 0) D t.2))
            ([0, 1].map (toyIds 4)) ([0, 2].map (toyIds 4)) [5, 5] 7 11 cfg cfg r1 toyServerRand k1 wc.val
            t.1.1 t.1.2.val)) -
      prob (fun t : (PaillierDraws (7 * 11) × Draw E) × (D → Answer c) =>
        S (randomSha c id (fun _ _ _ => 0) D t.2)
          (viewRun (shaGroup c q gx gy H sqrt sswu (randomSha c id (fun _ _ _ => 0) D t.2))
            ([0, 1].map (toyIds 4)) ([1, 3].map (toyIds 4)) [5, 5] 7 11 cfg cfg r1 toyServerRand k1 wc.val
            t.1.1 t.1.2.val))| ≤
      2 * (4 : Nat) * 1 + (4 : Nat) / 2 ^ 123 +
        ((3 * (7 + 11) : Nat) : ℚ) / (((7 - 1) * (11 - 1) : Nat) : ℚ) := by
  intro k1
  obtain ⟨D, d1, d2⟩ := table_domain q (toyIds 4)
  have hk1 : k1.Ok := ⟨fun i => by simp only [k1]; split <;> norm_num, insSort_isSort⟩
  obtain ⟨x, h1, h2, h3⟩ := ciphertext_ok goodPrimes_toy hsk (v := 5) (by norm_num) (by norm_num)
    (d := (3, 1)) (by norm_num)
  obtain ⟨x', h1', h2', h3'⟩ := ciphertext_ok goodPrimes_toy hsk (v := 5) (by norm_num)
    (by norm_num) (d := (1, 1)) (by norm_num)
  have j1 := jac_privateEncrypt (by norm_num) hsk (by norm_num) (by norm_num) h1
  have j2 := jac_privateEncrypt (by norm_num) hsk (by norm_num) (by norm_num) h1'
  refine ⟨D, C140_two_servers h hs H sswu id (by norm_num) (toyIds 4) toyIds_inj D d1 d2 _ [0, 2] [1, 3] [0, 1]
    (by decide) (by decide) rfl (by decide) [5, 5] goodPrimes_toy (by norm_num) (by norm_num) rfl (by decide) cfg
    cfg r1 r1 toyServerRand toyServerRand toyServerRand_ok toyServerRand_ok k1 hk1 sk hsk E hE wc
    [(0, 5, x)] [(1, 5, x')] ?_ ?_ rfl rfl ?_ S 1 (fun _ => abs_prob_sub_le_one _ _)
    (fun _ => abs_prob_sub_le_one _ _)⟩
  · simp [commonEntries, entries, k1, h3, BN.ofBytes_natToBytes, h2]
  · simp [commonEntries, entries, k1, h3', BN.ofBytes_natToBytes, h2']
  · simp only [List.map_cons, List.map_nil, List.prod_cons, List.prod_nil, mul_one, j1, j2]
    decide

/-- On P-256 the hypotheses on the curve, on the square roots and on the group are met. -/
theorem C140_reached (H : Hashes) (sswu : Bytes → Bytes → Res (p256.W q256).Point) :
    Named p256 q256 p256Gx p256Gy ∧ SqrtOk (powSqrt 256) q256 ∧
    ∃ E : EcGroup (p256.W q256).Point,
      E = shaGroup p256 q256 p256Gx p256Gy H (powSqrt 256) sswu H.sha256 ∧ Nonempty (Draw E) :=
  C139_reached H sswu

end PJC.RandomTable
