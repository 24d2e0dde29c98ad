import Verif.Props.Ddh
import Verif.Props.PaillierUniform
/-
C106: the client's message hides identifiers and values, unless the decisional Diffie-Hellman problem
of the curve or the decisional composite residuosity problem of the client's modulus can be solved.

Specification.  `dcrReal` and `dcrRand` are the probabilities that an algorithm answers "yes" on
`r^(n^s) mod n^(s+1)` with `r` a uniform unit modulo `n`, and on a uniform unit modulo `n^(s+1)`; their
difference `dcrAdv` is its advantage in the composite residuosity problem (Damgard-Jurik form).
-/
set_option linter.unusedSectionVars false
namespace PJC.Protocol
open PJC.Props PJC.Prob

/-! ### Specification -/

/-- An algorithm that is given a number modulo `n^(s+1)` and draws its own coins. -/
abbrev DcrAlg (n s : Nat) (C : Type) : Type := ZMod (n ^ (s + 1)) → C → Prop

/-- The `n^s`-th power, modulo `n^(s+1)`, of a unit modulo `n`. -/
def residue (n s : Nat) (r : (ZMod n)ˣ) : ZMod (n ^ (s + 1)) :=
  ((r : ZMod n).val : ZMod (n ^ (s + 1))) ^ n ^ s

/-- Probability of "yes" on an `n^s`-th power. -/
def dcrReal (n s : Nat) [NeZero n] {C : Type} [Fintype C] (B : DcrAlg n s C)
    [∀ z c, Decidable (B z c)] : ℚ :=
  prob fun t : (ZMod n)ˣ × C => B (residue n s t.1) t.2

/-- Probability of "yes" on a random unit. -/
def dcrRand (n s : Nat) [NeZero n] {C : Type} [Fintype C] (B : DcrAlg n s C)
    [∀ z c, Decidable (B z c)] : ℚ :=
  prob fun t : (ZMod (n ^ (s + 1)))ˣ × C => B (t.1 : ZMod (n ^ (s + 1))) t.2

/-- The advantage of an algorithm in the composite residuosity problem. -/
def dcrAdv (n s : Nat) [NeZero n] {C : Type} [Fintype C] (B : DcrAlg n s C)
    [∀ z c, Decidable (B z c)] : ℚ := dcrReal n s B - dcrRand n s B

/-- `(1 + n)^v` modulo `n^(s+1)`. -/
def carrier (n s : Nat) (v : Nat) : ZMod (n ^ (s + 1)) := (1 + (n : ZMod (n ^ (s + 1)))) ^ v

/-- The `j`-th algorithm against composite residuosity that a question `S` about a vector of
ciphertexts gives: the ciphertexts before the `j`-th are random units, that of the `j`-th value is
made with the number given, and later ones are textbook encryptions. -/
def dcrAlg (n s : Nat) [NeZero n] {K : Type} {M : Nat} (v : Fin M → Nat)
    (S : K → (Fin M → ZMod (n ^ (s + 1))) → Prop) (j : Fin M) :
    DcrAlg n s (K × (Fin M → (ZMod n)ˣ) × (Fin M → (ZMod (n ^ (s + 1)))ˣ)) := fun z c =>
  S c.1 fun i => if i < j then (c.2.2 i : ZMod (n ^ (s + 1)))
    else if i = j then carrier n s (v i) * z else carrier n s (v i) * residue n s (c.2.1 i)

instance (n s : Nat) [NeZero n] {K : Type} {M : Nat} (v : Fin M → Nat)
    (S : K → (Fin M → ZMod (n ^ (s + 1))) → Prop) [∀ k m, Decidable (S k m)] (j : Fin M)
    (z : ZMod (n ^ (s + 1))) (c : K × (Fin M → (ZMod n)ˣ) × (Fin M → (ZMod (n ^ (s + 1)))ˣ)) :
    Decidable (dcrAlg n s v S j z c) := by unfold dcrAlg; infer_instance

/-! ### The hybrid argument -/

theorem carrier_isUnit (n s v : Nat) : IsUnit (carrier n s v) := by
  apply IsUnit.pow
  have hn : IsNilpotent (n : ZMod (n ^ (s + 1))) := ⟨s + 1, by
    have := ZMod.natCast_self (n ^ (s + 1))
    push_cast at this
    exact this⟩
  exact hn.isUnit_one_add

/-- Any question about encryptions is answered as it is about random units, up to the sum of the
composite-residuosity advantages of the algorithms `dcrAlg`. -/
theorem encrypted_values (n s : Nat) [NeZero n] {K : Type} [Fintype K] {M : Nat} (v : Fin M → Nat)
    (S : K → (Fin M → ZMod (n ^ (s + 1))) → Prop) [∀ k m, Decidable (S k m)] :
    prob (fun t : K × (Fin M → (ZMod n)ˣ) =>
        S t.1 fun i => carrier n s (v i) * residue n s (t.2 i)) -
      prob (fun t : K × (Fin M → (ZMod (n ^ (s + 1)))ˣ) => S t.1 fun i => (t.2 i : ZMod (n ^ (s + 1))))
      = ∑ j : Fin M, dcrAdv n s (dcrAlg n s v S j) := by
  have key : ∀ k, prob (fun a : Fin M → (ZMod n)ˣ =>
        S k fun i => carrier n s (v i) * residue n s (a i)) -
      prob (fun b : Fin M → (ZMod (n ^ (s + 1)))ˣ => S k fun i => (b i : ZMod (n ^ (s + 1)))) =
      ∑ j : Fin M, (prob (fun t : (ZMod n)ˣ × (Fin M → (ZMod n)ˣ) × (Fin M → (ZMod (n ^ (s + 1)))ˣ) =>
          dcrAlg n s v S j (residue n s t.1) (k, t.2)) -
        prob (fun t : (ZMod (n ^ (s + 1)))ˣ × (Fin M → (ZMod n)ˣ) × (Fin M → (ZMod (n ^ (s + 1)))ˣ) =>
          dcrAlg n s v S j (t.1 : ZMod (n ^ (s + 1))) (k, t.2))) := by
    intro k
    rw [hybrid_sum (fun i (a : (ZMod n)ˣ) => carrier n s (v i) * residue n s a)
      (fun i (b : (ZMod (n ^ (s + 1)))ˣ) => (b : ZMod (n ^ (s + 1)))) (S k)]
    refine Finset.sum_congr rfl fun j _ => ?_
    congr 1
    obtain ⟨c, hc⟩ := carrier_isUnit n s (v j)
    rw [← prob_equiv (Equiv.prodCongr (Equiv.mulLeft c) (Equiv.refl _))]
    apply prob_congr
    rintro ⟨x, a, b⟩
    unfold dcrAlg
    apply iff_of_eq
    congr 1
    funext i
    by_cases hi : i = j
    · subst hi; simp [hc]
    · simp [hi]
  rw [prob_prod (fun k (a : Fin M → (ZMod n)ˣ) =>
      S k fun i => carrier n s (v i) * residue n s (a i)),
    prob_prod (fun k (b : Fin M → (ZMod (n ^ (s + 1)))ˣ) => S k fun i => (b i : ZMod (n ^ (s + 1)))),
    ← sub_div, ← Finset.sum_sub_distrib, Finset.sum_congr rfl fun k _ => key k, Finset.sum_comm,
    Finset.sum_div]
  refine Finset.sum_congr rfl fun j _ => ?_
  unfold dcrAdv dcrReal dcrRand
  rw [Finset.sum_sub_distrib, sub_div]
  congr 1
  · rw [← prob_prod (fun k (t : (ZMod n)ˣ × (Fin M → (ZMod n)ˣ) × (Fin M → (ZMod (n ^ (s + 1)))ˣ)) =>
      dcrAlg n s v S j (residue n s t.1) (k, t.2)),
      ← prob_equiv (⟨fun t => (t.2.1, t.1, t.2.2), fun t => (t.2.1, t.1, t.2.2), fun _ => rfl,
        fun _ => rfl⟩ : ((ZMod n)ˣ × K × (Fin M → (ZMod n)ˣ) × (Fin M → (ZMod (n ^ (s + 1)))ˣ)) ≃
          (K × (ZMod n)ˣ × (Fin M → (ZMod n)ˣ) × (Fin M → (ZMod (n ^ (s + 1)))ˣ)))]
    rfl
  · rw [← prob_prod (fun k (t : (ZMod (n ^ (s + 1)))ˣ × (Fin M → (ZMod n)ˣ) ×
        (Fin M → (ZMod (n ^ (s + 1)))ˣ)) =>
      dcrAlg n s v S j (t.1 : ZMod (n ^ (s + 1))) (k, t.2)),
      ← prob_equiv (⟨fun t => (t.2.1, t.1, t.2.2), fun t => (t.2.1, t.1, t.2.2), fun _ => rfl,
        fun _ => rfl⟩ : ((ZMod (n ^ (s + 1)))ˣ × K × (Fin M → (ZMod n)ˣ) ×
            (Fin M → (ZMod (n ^ (s + 1)))ˣ)) ≃
          (K × (ZMod (n ^ (s + 1)))ˣ × (Fin M → (ZMod n)ˣ) × (Fin M → (ZMod (n ^ (s + 1)))ˣ)))]
    rfl

/-! ### Encryption with the private key -/

/-- The draws of a private-key encryption: numbers `i`, `j` stand for the exponents `i + 1 < p` and
`j + 1 < q`. -/
abbrev PDraw (p q : Nat) : Type := Fin (p - 1) × Fin (q - 1)

/-- The two exponents. -/
def PDraw.pair {p q : Nat} (d : PDraw p q) : Int × Int := ((d.1.val : Int) + 1, (d.2.val : Int) + 1)

theorem val_carrier_residue (n s m : Nat) [NeZero n] (r : (ZMod n)ˣ) :
    ((carrier n s m * residue n s r).val : Int) =
      ((1 + (n : Int)) ^ m * ((r : ZMod n).val : Int) ^ n ^ s) % (n : Int) ^ (s + 1) := by
  have : carrier n s m * residue n s r =
      (((1 + n) ^ m * (r : ZMod n).val ^ n ^ s : Nat) : ZMod (n ^ (s + 1))) := by
    unfold carrier residue
    push_cast
    ring
  rw [this, ZMod.val_natCast]
  push_cast
  ring

/-- Uniform draws give a uniform unit, and the ciphertext is the textbook encryption with it. -/
theorem draws_units {cfg : ExpCfg} {p q s : Nat} (hs : 1 ≤ s) {sk : PrivatePaillier}
    (hsk : PrivatePaillier.new cfg p q s = .ok sk) [NeZero (p * q)] :
    ∃ e : PDraw p q ≃ (ZMod (p * q))ˣ, ∀ (m : Nat), m < (p * q) ^ s → ∀ d : PDraw p q,
      sk.encrypt m d.pair.1 d.pair.2 =
        .ok ((carrier (p * q) s m * residue (p * q) s (e d)).val : Int) := by
  have S := PrivatePaillier.new_good hs hsk
  obtain ⟨⟨a1, a2⟩, b1, b2⟩ := PrivatePaillier.generators hs hsk
  obtain ⟨Ep, -⟩ := primitive_root S.gp.prime S.gp.gt3 S.gp.odd S.gp.half S.gp.gco a1 a2
  obtain ⟨Eq, -⟩ := primitive_root S.gq.prime S.gq.gt3 S.gq.odd S.gq.half S.gq.gco b1 b2
  have cop : ∀ r : (ZMod (p * q))ˣ, IsCoprime ((r : ZMod (p * q)).val : Int) (p : Int) ∧
      IsCoprime ((r : ZMod (p * q)).val : Int) (q : Int) := by
    intro r
    have h := ZMod.val_coe_unit_coprime r
    exact ⟨Nat.isCoprime_iff_coprime.2 h.coprime_mul_right_right,
      Nat.isCoprime_iff_coprime.2 h.coprime_mul_left_right⟩
  choose ep ep1 ep2 ep3 using fun r => Ep _ (cop r).1
  choose eq eq1 eq2 eq3 using fun r => Eq _ (cop r).2
  let f : (ZMod (p * q))ˣ → PDraw p q := fun r =>
    (⟨ep r - 1, by have := ep1 r; have := ep2 r; omega⟩,
      ⟨eq r - 1, by have := eq1 r; have := eq2 r; omega⟩)
  have finj : Function.Injective f := by
    intro r r' h
    have h1 : ep r = ep r' := by
      have := congrArg (fun d : PDraw p q => d.1.val) h
      have := ep1 r; have := ep1 r'
      simp only [f] at *
      omega
    have h2 : eq r = eq r' := by
      have := congrArg (fun d : PDraw p q => d.2.val) h
      have := eq1 r; have := eq1 r'
      simp only [f] at *
      omega
    have t1 : ((r : ZMod (p * q)).val : Int) ≡ ((r' : ZMod (p * q)).val : Int) [ZMOD (p : Int)] :=
      (ep3 r).symm.trans (h1 ▸ ep3 r')
    have t2 : ((r : ZMod (p * q)).val : Int) ≡ ((r' : ZMod (p * q)).val : Int) [ZMOD (q : Int)] :=
      (eq3 r).symm.trans (h2 ▸ eq3 r')
    have t3 : ((r : ZMod (p * q)).val : Int) ≡ ((r' : ZMod (p * q)).val : Int)
        [ZMOD ((p * q : Nat) : Int)] := by
      push_cast
      exact (Int.modEq_and_modEq_iff_modEq_mul
        (Int.isCoprime_iff_gcd_eq_one.1 S.coprime)).1 ⟨t1, t2⟩
    apply Units.ext
    have := (ZMod.intCast_eq_intCast_iff _ _ _).2 t3
    simpa using this
  have hcard : Fintype.card (ZMod (p * q))ˣ = Fintype.card (PDraw p q) := by
    have hpq : Nat.Coprime p q := Nat.isCoprime_iff_coprime.1 S.coprime
    rw [ZMod.card_units_eq_totient, Nat.totient_mul hpq, Nat.totient_prime S.gp.prime,
      Nat.totient_prime S.gq.prime]
    simp [PDraw]
  have fbij : Function.Bijective f := (Fintype.bijective_iff_injective_and_card f).2 ⟨finj, hcard⟩
  refine ⟨(Equiv.ofBijective f fbij).symm, fun m hm d => ?_⟩
  obtain ⟨r, rfl⟩ := fbij.2 d
  have : (Equiv.ofBijective f fbij).symm (f r) = r := Equiv.ofBijective_symm_apply_apply f fbij r
  rw [this, val_carrier_residue]
  have hp : (f r).pair.1 = ep r := by
    have := ep1 r
    simp only [PDraw.pair, f]
    omega
  have hq : (f r).pair.2 = eq r := by
    have := eq1 r
    simp only [PDraw.pair, f]
    omega
  rw [hp, hq]
  obtain ⟨cp, cq, c, e1, e2, e3, c0, c1, c2, c3⟩ := PrivatePaillier.parts_spec S m
    (show (0 : Int) ≤ ep r by omega) (show (0 : Int) ≤ eq r by omega)
  rw [Int.toNat_natCast] at c2 c3
  have hm' : ((m : Nat) : Int) < ((p * q : Nat) : Int) ^ s := by exact_mod_cast hm
  have hc : sk.encrypt m (ep r) (eq r) = .ok c := by
    unfold PrivatePaillier.encrypt
    rw [if_neg (by omega), S.hns, if_neg (by omega), e1]
    simp only [Res.ok_bind, e2, e3]
  rw [hc]
  congr 1
  have t1 := c2.trans ((pow_lift p q s _ _ (ep3 r)).mul_left _)
  have t2 := pow_lift q p s _ _ (eq3 r)
  rw [mul_comm q p] at t2
  have t2 := c3.trans (t2.mul_left _)
  have e : ((p * q : Nat) : Int) ^ (s + 1) = (p : Int) ^ (s + 1) * (q : Int) ^ (s + 1) := by
    push_cast; rw [mul_pow]
  have t3 : c ≡ (1 + ((p * q : Nat) : Int)) ^ m * ((r : ZMod (p * q)).val : Int) ^ (p * q) ^ s
      [ZMOD ((p * q : Nat) : Int) ^ (s + 1)] := by
    rw [e]
    exact (Int.modEq_and_modEq_iff_modEq_mul
      (Int.isCoprime_iff_gcd_eq_one.1 (S.coprime.pow))).1 ⟨t1, t2⟩
  unfold Int.ModEq at t3
  rwa [Int.emod_eq_of_lt c0 c1] at t3

/-! ### Both assumptions together -/

variable {G : Type} [AddCommGroup G] [DecidableEq G]

/-- `ddhAlg` for a question that depends on further coins. -/
def ddhAlgWith (E : EcGroup G) (flip : G → Bool) {K : Type} {N : Nat}
    (S : K → (Fin N → G) → (Fin N → G) → Prop) (j : Fin N) : DdhAlg G (K × Coins E N) :=
  fun X Y Z c => ddhAlg E flip (S c.1) j X Y Z c.2

instance (E : EcGroup G) (flip : G → Bool) {K : Type} {N : Nat}
    (S : K → (Fin N → G) → (Fin N → G) → Prop) [∀ k h e, Decidable (S k h e)] (j : Fin N)
    (X Y Z : G) (c : K × Coins E N) : Decidable (ddhAlgWith E flip S j X Y Z c) := by
  unfold ddhAlgWith; infer_instance

theorem encrypted_hashes_with (E : EcGroup G) [hE : Fact E.Lawful] (flip : G → Bool) {K : Type}
    [Fintype K] {N : Nat} (S : K → (Fin N → G) → (Fin N → G) → Prop)
    [∀ k h e, Decidable (S k h e)] :
    prob (fun t : K × Draw E × (Fin N → Draw E) =>
        S t.1 (hashes E flip t.2.2) fun i => t.2.1.scalar • hashes E flip t.2.2 i) -
      prob (fun t : K × Coins E N =>
        S t.1 (hashes E flip t.2.1) fun i => (t.2.2 i).point E) =
      ∑ j : Fin N, ddhAdv E (ddhAlgWith E flip S j) := by
  rw [prob_prod (fun k (t : Draw E × (Fin N → Draw E)) =>
      S k (hashes E flip t.2) fun i => t.1.scalar • hashes E flip t.2 i),
    prob_prod (fun k (t : Coins E N) => S k (hashes E flip t.1) fun i => (t.2 i).point E),
    ← sub_div, ← Finset.sum_sub_distrib,
    Finset.sum_congr rfl fun k _ => encrypted_hashes E flip (S k), Finset.sum_comm, Finset.sum_div]
  refine Finset.sum_congr rfl fun j _ => ?_
  unfold ddhAdv ddhReal ddhRand
  rw [Finset.sum_sub_distrib, sub_div]
  congr 1
  · rw [← prob_prod (fun k (t : Draw E × Draw E × Coins E N) =>
        ddhAlg E flip (S k) j (t.1.point E) (t.2.1.point E) (t.1.scalar • t.2.1.point E) t.2.2),
      ← prob_equiv (⟨fun t => (t.2.2.1, t.1, t.2.1, t.2.2.2), fun t => (t.2.1, t.2.2.1, t.1, t.2.2.2),
        fun _ => rfl, fun _ => rfl⟩ : (Draw E × Draw E × K × Coins E N) ≃
          (K × Draw E × Draw E × Coins E N))]
    rfl
  · rw [← prob_prod (fun k (t : (Draw E × Draw E × Draw E) × Coins E N) =>
        ddhAlg E flip (S k) j (t.1.1.point E) (t.1.2.1.point E) (t.1.2.2.point E) t.2),
      ← prob_equiv (⟨fun t => (t.2.1, t.1, t.2.2), fun t => (t.2.1, t.1, t.2.2),
        fun _ => rfl, fun _ => rfl⟩ : ((Draw E × Draw E × Draw E) × K × Coins E N) ≃
          (K × (Draw E × Draw E × Draw E) × Coins E N))]
    rfl

/-- The client's draws for its `M` ciphertexts, as the code asks for them. -/
def drawsOf {p q M : Nat} (d : Fin M → PDraw p q) (i : Nat) : Int × Int :=
  if h : i < M then (d ⟨i, h⟩).pair else (1, 1)

/-- A list of values as the code has it. -/
def valueList {M : Nat} (v : Fin M → Nat) : List Int := List.ofFn fun i => (v i : Int)

/-- The bytes of a vector of ciphertexts. -/
def ctBytes {n s M : Nat} (z : Fin M → ZMod (n ^ (s + 1))) : List Bytes :=
  List.ofFn fun i => BN.natToBytes (z i).val

theorem ciphertexts_eq {sk : PrivatePaillier} {p q : Nat} [NeZero (p * q)]
    {e : PDraw p q ≃ (ZMod (p * q))ˣ}
    (he : ∀ (m : Nat), m < (p * q) ^ 2 → ∀ d : PDraw p q, sk.encrypt m d.pair.1 d.pair.2 =
      .ok ((carrier (p * q) 2 m * residue (p * q) 2 (e d)).val : Int))
    {M : Nat} {v : Fin M → Nat} (hv : ∀ i, v i < (p * q) ^ 2) (d : Fin M → PDraw p q) :
    ciphertexts sk (valueList v) (drawsOf d) =
      ctBytes fun i => carrier (p * q) 2 (v i) * residue (p * q) 2 (e (d i)) := by
  apply List.ext_getElem
  · simp [ciphertexts, valueList, ctBytes]
  · intro i h1 h2
    have hi : i < M := by simpa [ctBytes] using h2
    simp only [ciphertexts, valueList, ctBytes, List.getElem_mapIdx, List.getElem_ofFn, ciphertext,
      drawsOf, hi, dif_pos, he _ (hv ⟨i, hi⟩), Int.toNat_natCast]

/-- The client's message in a run of the code, with all its draws: `d` for the ciphertexts, `wc` for
its key, `r` for the hash values. -/
def clientSendsAll (E : EcGroup G) (flip : G → Bool) {N M : Nat} (ids : Fin N → Bytes)
    (own els : List (Fin N)) (v : Fin M → Nat) (p q : Nat) (cfg cfg' : ExpCfg) (r1 : ServerRand)
    (sort : List EncElement → List EncElement) (ws : Draw E) (d : Fin M → PDraw p q) (wc : Draw E)
    (r : Fin N → Draw E) : Option ClientRoundOne :=
  clientSends E flip ids own els (valueList v) p q cfg cfg' r1 ⟨drawsOf d, sort⟩ ws wc r

/-- The question about hash values and encrypted hash values, given the draws of the ciphertexts. -/
def askPoints (E : EcGroup G) {N M : Nat} (own els : List (Fin N)) (v : Fin M → Nat) (p q : Nat)
    (sk : PrivatePaillier) (sort : List EncElement → List EncElement) (ws : Draw E)
    (S : (Fin N → G) → Option ClientRoundOne → Prop) (d : Fin M → PDraw p q) (h e : Fin N → G) :
    Prop :=
  S h (some (clientMessage E (p * q) sort own els (ciphertexts sk (valueList v) (drawsOf d)) ws e))

instance (E : EcGroup G) {N M : Nat} (own els : List (Fin N)) (v : Fin M → Nat) (p q : Nat)
    (sk : PrivatePaillier) (sort : List EncElement → List EncElement) (ws : Draw E)
    (S : (Fin N → G) → Option ClientRoundOne → Prop) [∀ h m, Decidable (S h m)]
    (d : Fin M → PDraw p q) (h e : Fin N → G) :
    Decidable (askPoints E own els v p q sk sort ws S d h e) := by unfold askPoints; infer_instance

/-- The question about ciphertexts, given the points. -/
def askCts (E : EcGroup G) (flip : G → Bool) {N M : Nat} (own els : List (Fin N)) (n : Nat)
    (sort : List EncElement → List EncElement) (ws : Draw E)
    (S : (Fin N → G) → Option ClientRoundOne → Prop) (k : Coins E N)
    (z : Fin M → ZMod (n ^ (2 + 1))) : Prop :=
  S (hashes E flip k.1)
    (some (clientMessage E n sort own els (ctBytes z) ws fun i => (k.2 i).point E))

instance (E : EcGroup G) (flip : G → Bool) {N M : Nat} (own els : List (Fin N)) (n : Nat)
    (sort : List EncElement → List EncElement) (ws : Draw E)
    (S : (Fin N → G) → Option ClientRoundOne → Prop) [∀ h m, Decidable (S h m)] (k : Coins E N)
    (z : Fin M → ZMod (n ^ (2 + 1))) : Decidable (askCts E flip own els n sort ws S k z) := by
  unfold askCts; infer_instance

/-- **C106**.  Whatever question `S` the server asks about the hash values of all identifiers and the
client's message, it gets the same answer about a message made of random points and random
ciphertexts, up to the advantages of explicit algorithms in the two problems. -/
theorem C106_client_message (E : EcGroup G) [hE : Fact E.Lawful] (flip : G → Bool) {N M : Nat}
    (ids : Fin N → Bytes) (hids : Function.Injective ids) (own els : List (Fin N))
    (hlen : els.length = M) {p q : Nat} [NeZero (p * q)] (hk : GoodPrimes p q) (v : Fin M → Nat)
    (hv : ∀ i, v i < (p * q) ^ 2) (cfg cfg' : ExpCfg) (r1 : ServerRand)
    (sort : List EncElement → List EncElement) (sk : PrivatePaillier)
    (hsk : PrivatePaillier.new cfg p q 2 = .ok sk) (ws : Draw E)
    (S : (Fin N → G) → Option ClientRoundOne → Prop) [∀ h m, Decidable (S h m)] :
    prob (fun t : (Fin M → PDraw p q) × Draw E × (Fin N → Draw E) => S (hashes E flip t.2.2)
        (clientSendsAll E flip ids own els v p q cfg cfg' r1 sort ws t.1 t.2.1 t.2.2)) -
      prob (fun t : Coins E N × (Fin M → (ZMod ((p * q) ^ (2 + 1)))ˣ) =>
        askCts E flip own els (p * q) sort ws S t.1 fun i => (t.2 i : ZMod ((p * q) ^ (2 + 1)))) =
      ∑ j : Fin N, ddhAdv E (ddhAlgWith E flip (askPoints E own els v p q sk sort ws S) j) +
      ∑ j : Fin M, dcrAdv (p * q) 2 (dcrAlg (p * q) 2 v
        (askCts E flip own els (p * q) sort ws S) j) := by
  obtain ⟨e, he⟩ := draws_units (by norm_num) hsk
  rw [← encrypted_hashes_with E flip (askPoints E own els v p q sk sort ws S),
    ← encrypted_values (p * q) 2 v (askCts E flip own els (p * q) sort ws S)]
  have h1 : prob (fun t : (Fin M → PDraw p q) × Draw E × (Fin N → Draw E) => S (hashes E flip t.2.2)
        (clientSendsAll E flip ids own els v p q cfg cfg' r1 sort ws t.1 t.2.1 t.2.2)) =
      prob (fun t : (Fin M → PDraw p q) × Draw E × (Fin N → Draw E) =>
        askPoints E own els v p q sk sort ws S t.1 (hashes E flip t.2.2)
          fun i => t.2.1.scalar • hashes E flip t.2.2 i) := by
    apply prob_congr
    rintro ⟨d, wc, r⟩
    have := clientSends_eq hE.out flip hids own els (valueList v) hk (by simp [valueList, hlen])
      (by
        intro x hx
        obtain ⟨i, rfl⟩ := (List.mem_ofFn' _ _).1 hx
        have := hv i
        exact ⟨Int.natCast_nonneg _, show ((v i : Nat) : Int) < _ by exact_mod_cast this⟩) cfg cfg' r1 ⟨drawsOf d, sort⟩
      (by
        intro i
        simp only [drawsOf]
        split
        · exact ⟨by simp only [PDraw.pair]; omega, by simp only [PDraw.pair]; omega⟩
        · norm_num) hsk ws wc r
    simp only [clientSendsAll, this, askPoints]
  have h2 : prob (fun t : (Fin M → PDraw p q) × Coins E N =>
        askPoints E own els v p q sk sort ws S t.1 (hashes E flip t.2.1) fun i => (t.2.2 i).point E) =
      prob (fun t : Coins E N × (Fin M → (ZMod (p * q))ˣ) =>
        askCts E flip own els (p * q) sort ws S t.1
          fun i => carrier (p * q) 2 (v i) * residue (p * q) 2 (t.2 i)) := by
    rw [← prob_equiv ((Equiv.prodComm _ _).trans (Equiv.prodCongr (Equiv.refl (Coins E N))
      (Equiv.arrowCongr (Equiv.refl (Fin M)) e)))]
    apply prob_congr
    rintro ⟨d, k⟩
    simp only [askPoints, askCts, ciphertexts_eq he hv]
    rfl
  rw [h1, h2]
  ring

/-- **C106**, as a comparison of two clients with equally many identifiers and any values: if the lists
have common identifiers with the server's list at the same positions, the advantage of any question
is at most `2 N δ + 2 M ε`, where `δ` and `ε` bound the advantages in the two problems. -/
theorem C106_two_clients (E : EcGroup G) [hE : Fact E.Lawful] (flip : G → Bool) {N M : Nat}
    (ids : Fin N → Bytes) (hids : Function.Injective ids) (own els els' : List (Fin N))
    (ho : own.Nodup) (hnd : els.Nodup) (hnd' : els'.Nodup)
    (hpat : els.map (fun i => decide (i ∈ own)) = els'.map (fun i => decide (i ∈ own)))
    (hlen : els.length = M) {p q : Nat} [NeZero (p * q)] (hk : GoodPrimes p q) (v v' : Fin M → Nat)
    (hv : ∀ i, v i < (p * q) ^ 2) (hv' : ∀ i, v' i < (p * q) ^ 2) (cfg cfg' : ExpCfg)
    (r1 r1' : ServerRand) (sort : List EncElement → List EncElement) (hsort : IsSort sort)
    (sk : PrivatePaillier) (hsk : PrivatePaillier.new cfg p q 2 = .ok sk) (ws : Draw E)
    (S : (Fin N → G) → Option ClientRoundOne → Prop) [∀ h m, Decidable (S h m)] (δ ε : ℚ)
    (hδ : ∀ j, |ddhAdv E (ddhAlgWith E flip (askPoints E own els v p q sk sort ws S) j)| ≤ δ)
    (hδ' : ∀ j, |ddhAdv E (ddhAlgWith E flip (askPoints E own els' v' p q sk sort ws S) j)| ≤ δ)
    (hε : ∀ j, |dcrAdv (p * q) 2 (dcrAlg (p * q) 2 v
      (askCts E flip own els (p * q) sort ws S) j)| ≤ ε)
    (hε' : ∀ j, |dcrAdv (p * q) 2 (dcrAlg (p * q) 2 v'
      (askCts E flip own els' (p * q) sort ws S) j)| ≤ ε) :
    |prob (fun t : (Fin M → PDraw p q) × Draw E × (Fin N → Draw E) => S (hashes E flip t.2.2)
        (clientSendsAll E flip ids own els v p q cfg cfg' r1 sort ws t.1 t.2.1 t.2.2)) -
      prob (fun t : (Fin M → PDraw p q) × Draw E × (Fin N → Draw E) => S (hashes E flip t.2.2)
        (clientSendsAll E flip ids own els' v' p q cfg cfg' r1' sort ws t.1 t.2.1 t.2.2))| ≤
      2 * N * δ + 2 * M * ε := by
  have hl : els.length = els'.length := by simpa using congrArg List.length hpat
  have h1 := C106_client_message E flip ids hids own els hlen hk v hv cfg cfg' r1 sort sk hsk ws S
  have h2 := C106_client_message E flip ids hids own els' (hl ▸ hlen) hk v' hv' cfg cfg' r1' sort sk
    hsk ws S
  have hideal : prob (fun t : Coins E N × (Fin M → (ZMod ((p * q) ^ (2 + 1)))ˣ) =>
        askCts E flip own els (p * q) sort ws S t.1 fun i => (t.2 i : ZMod ((p * q) ^ (2 + 1)))) =
      prob (fun t : Coins E N × (Fin M → (ZMod ((p * q) ^ (2 + 1)))ˣ) =>
        askCts E flip own els' (p * q) sort ws S t.1 fun i => (t.2 i : ZMod ((p * q) ^ (2 + 1)))) := by
    have swap : ∀ l : List (Fin N), prob (fun t : Coins E N × (Fin M → (ZMod ((p * q) ^ (2 + 1)))ˣ) =>
        askCts E flip own l (p * q) sort ws S t.1 fun i => (t.2 i : ZMod ((p * q) ^ (2 + 1)))) =
        (∑ u : Fin M → (ZMod ((p * q) ^ (2 + 1)))ˣ, prob (fun k : Coins E N =>
          askCts E flip own l (p * q) sort ws S k fun i => (u i : ZMod ((p * q) ^ (2 + 1))))) /
        Fintype.card (Fin M → (ZMod ((p * q) ^ (2 + 1)))ˣ) := by
      intro l
      rw [prob_comm (fun (k : Coins E N) (u : Fin M → (ZMod ((p * q) ^ (2 + 1)))ˣ) =>
        askCts E flip own l (p * q) sort ws S k fun i => Units.val (u i)),
        prob_prod (fun (u : Fin M → (ZMod ((p * q) ^ (2 + 1)))ˣ) (k : Coins E N) =>
        askCts E flip own l (p * q) sort ws S k fun i => Units.val (u i))]
    rw [swap els, swap els']
    congr 1
    refine Finset.sum_congr rfl fun u _ => ?_
    exact clientMessage_alike E flip ho hnd hnd' hpat (p * q) hsort _ ws S
  have bound : ∀ (L : Nat) (x : ℚ) (f : Fin L → ℚ), (∀ j, |f j| ≤ x) → |∑ j, f j| ≤ L * x := by
    intro L x f hf
    refine (Finset.abs_sum_le_sum_abs _ _).trans ?_
    refine (Finset.sum_le_sum fun j _ => hf j).trans ?_
    simp
  have b1 := abs_le.1 (bound _ _ _ hδ)
  have b2 := abs_le.1 (bound _ _ _ hδ')
  have b3 := abs_le.1 (bound _ _ _ hε)
  have b4 := abs_le.1 (bound _ _ _ hε')
  rw [hideal] at h1
  rw [abs_le]
  constructor <;> linarith [b1.1, b1.2, b2.1, b2.2, b3.1, b3.2, b4.1, b4.2]

/-! ### Examples -/

/-- For n = 3 composite residuosity is easy: the algorithm that checks `z² = 1` has advantage 2/3.
So the advantage is not always 0. -/
example : dcrAdv 3 1 (fun z (_ : Unit) => z ^ 2 = 1) = 2 / 3 := by
  unfold dcrAdv dcrReal dcrRand prob
  have h1 : (Finset.univ.filter fun t : (ZMod 3)ˣ × Unit => residue 3 1 t.1 ^ 2 = 1).card = 2 := by
    decide +kernel
  have h2 : (Finset.univ.filter fun t : (ZMod (3 ^ (1 + 1)))ˣ × Unit =>
      (t.1 : ZMod (3 ^ (1 + 1))) ^ 2 = 1).card = 2 := by
    decide +kernel
  have c1 : Fintype.card ((ZMod 3)ˣ × Unit) = 2 := by decide +kernel
  have c2 : Fintype.card ((ZMod (3 ^ (1 + 1)))ˣ × Unit) = 6 := by decide +kernel
  rw [h1, h2, c1, c2]
  norm_num

instance : NeZero (7 * 11) := ⟨by norm_num⟩

/-- Two clients that have the server's identifier 1 at the second position, other identifiers besides,
and different values (in the toy groups all that is known of the advantages is that they are at
most 1). -/
example (cfg : ExpCfg) (r1 : ServerRand) (sk : PrivatePaillier)
    (hsk : PrivatePaillier.new cfg (7 : Nat) (11 : Nat) 2 = .ok sk) (ws : Draw toyEc) :=
  C106_two_clients toyEc toyFlip (toyIds 4) toyIds_inj [1] [0, 1, 3] [2, 1, 0] (by decide)
    (by decide) (by decide) (by decide) rfl goodPrimes_toy ![5, 9, 2] ![7, 7, 7] (by decide)
    (by decide) cfg cfg r1 r1 insSort insSort_isSort sk hsk ws
    (fun h m => m.map (fun m => m.encryptedSet.length) = some (h 0).val) 1 1
    (fun _ => abs_prob_sub_le_one _ _) (fun _ => abs_prob_sub_le_one _ _)
    (fun _ => abs_prob_sub_le_one _ _) (fun _ => abs_prob_sub_le_one _ _)

end PJC.Protocol
