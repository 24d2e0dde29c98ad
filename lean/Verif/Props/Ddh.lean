import Verif.Lemmas.Prob
import Verif.Props.SumLeak
/-
C104, C105: neither party learns the other's identifiers, unless the decisional Diffie-Hellman
problem of the curve can be solved.

Specification.  Scalars are uniform in `[1, order)`; `ddhReal` and `ddhRand` are the probabilities
that an algorithm answers "yes" on `(aP, bP, abP)` and on `(aP, bP, zP)`, `P` the generator of the
curve; their difference `ddhAdv` is its advantage.  The hash to the curve is replaced by a random
function on finitely many identifiers (random oracle): the hash of an identifier is `rP` with `r`
uniform, up to a sign that is a fixed function of the point (the SHA hashes of the code return the
point with even `y`; `flip` says for which points the sign is changed).
-/
set_option linter.unusedSectionVars false
namespace PJC.Protocol
open PJC.Props PJC.Prob

variable {G : Type} [AddCommGroup G] [DecidableEq G]

/-! ### Specification -/

/-- The draws of a scalar: `i` stands for the scalar `i + 1`. -/
abbrev Draw (E : EcGroup G) : Type := Fin (E.order - 1)

/-- The scalar of a draw times the generator. -/
def Draw.point (E : EcGroup G) (i : Draw E) : G := ((i.val : Int) + 1) • E.gen

/-- The scalar of a draw. -/
def Draw.scalar {E : EcGroup G} (i : Draw E) : Int := (i.val : Int) + 1

/-- An algorithm that is given three points and draws its own coins. -/
abbrev DdhAlg (G C : Type) : Type := G → G → G → C → Prop

/-- Probability of "yes" on a Diffie-Hellman triple. -/
def ddhReal (E : EcGroup G) {C : Type} [Fintype C] (B : DdhAlg G C)
    [∀ X Y Z c, Decidable (B X Y Z c)] : ℚ :=
  prob fun t : Draw E × Draw E × C =>
    B (t.1.point E) (t.2.1.point E) (t.1.scalar • t.2.1.point E) t.2.2

/-- Probability of "yes" on a random triple. -/
def ddhRand (E : EcGroup G) {C : Type} [Fintype C] (B : DdhAlg G C)
    [∀ X Y Z c, Decidable (B X Y Z c)] : ℚ :=
  prob fun t : (Draw E × Draw E × Draw E) × C =>
    B (t.1.1.point E) (t.1.2.1.point E) (t.1.2.2.point E) t.2

/-- The advantage of an algorithm in the decisional Diffie-Hellman problem. -/
def ddhAdv (E : EcGroup G) {C : Type} [Fintype C] (B : DdhAlg G C)
    [∀ X Y Z c, Decidable (B X Y Z c)] : ℚ := ddhReal E B - ddhRand E B

/-- The sign convention of the hash. -/
def signed (flip : G → Bool) (Y X : G) : G := if flip Y then -X else X

/-- The hash values of `N` identifiers, from one draw for each. -/
def hashes (E : EcGroup G) (flip : G → Bool) {N : Nat} (r : Fin N → Draw E) (i : Fin N) : G :=
  signed flip ((r i).point E) ((r i).point E)

/-- A curve whose SHA-256 hash is the given table (an error on other identifiers). -/
def withOracle (E : EcGroup G) {N : Nat} (ids : Fin N → Bytes) (H : Fin N → G) : EcGroup G :=
  { E with hashSha256 := fun a =>
      match (List.finRange N).find? fun i => decide (ids i = a) with
      | some i => .ok (H i)
      | none => .err .internal }

/-- The coins of the algorithms below: draws for the hashes, and draws for random points. -/
abbrev Coins (E : EcGroup G) (N : Nat) : Type := (Fin N → Draw E) × (Fin N → Draw E)

/-- The `j`-th algorithm against the Diffie-Hellman problem that a question `S` about hash values
and encrypted hash values gives: it asks `S` about hash values of its own making, except for the
`j`-th, for which it takes the second point; the encryptions of the identifiers before the `j`-th
are random points, that of the `j`-th is the third point, and the later ones are made from the first
point.  It uses only additions and multiplications by scalars it drew itself. -/
def ddhAlg (E : EcGroup G) (flip : G → Bool) {N : Nat} (S : (Fin N → G) → (Fin N → G) → Prop)
    (j : Fin N) : DdhAlg G (Coins E N) := fun X Y Z c =>
  S (fun i => if i = j then signed flip Y Y else hashes E flip c.1 i)
    (fun i => if i < j then (c.2 i).point E else if i = j then signed flip Y Z
      else signed flip ((c.1 i).point E) ((c.1 i).scalar • X))

instance (E : EcGroup G) (flip : G → Bool) {N : Nat} (S : (Fin N → G) → (Fin N → G) → Prop)
    [∀ h e, Decidable (S h e)] (j : Fin N) (X Y Z : G) (c : Coins E N) :
    Decidable (ddhAlg E flip S j X Y Z c) := by unfold ddhAlg; infer_instance

/-! ### The hybrid argument -/

/-- The negative scalar. -/
def negDraw {E : EcGroup G} (b : Bool) (i : Draw E) : Draw E := if b then i.rev else i

theorem negDraw_negDraw {E : EcGroup G} (b : Bool) (i : Draw E) : negDraw b (negDraw b i) = i := by
  cases b <;> simp [negDraw]

theorem point_negDraw {E : EcGroup G} (hE : E.Lawful) (b : Bool) (i : Draw E) :
    (negDraw b i).point E = if b then -(i.point E) else i.point E := by
  cases b
  · rfl
  · simp only [negDraw, if_true, Draw.point, ← neg_zsmul]
    apply hE.zsmul_congr
    have : ((i.rev : Draw E).val : Int) + 1 = E.order - 1 - i.val := by
      have := i.isLt
      simp only [Fin.val_rev]
      omega
    rw [this]
    exact Int.modEq_iff_dvd.2 ⟨-1, by ring⟩

/-- The `j`-th hybrid: random points up to `j`, encryptions from `j` on. -/
def hybrid (E : EcGroup G) (flip : G → Bool) {N : Nat} (S : (Fin N → G) → (Fin N → G) → Prop)
    (j : Nat) (t : Draw E × Coins E N) : Prop :=
  S (hashes E flip t.2.1) fun i =>
    if i.val < j then (t.2.2 i).point E else t.1.scalar • hashes E flip t.2.1 i

instance (E : EcGroup G) (flip : G → Bool) {N : Nat} (S : (Fin N → G) → (Fin N → G) → Prop)
    [∀ h e, Decidable (S h e)] (j : Nat) : DecidablePred (hybrid E flip S j) := fun _ => by
  unfold hybrid; infer_instance

theorem smul_signed (flip : G → Bool) (k : Int) (Y X : G) :
    k • signed flip Y X = signed flip Y (k • X) := by
  unfold signed; split <;> simp

instance drawNonempty {E : EcGroup G} [hE : Fact E.Lawful] : Nonempty (Draw E) :=
  ⟨⟨0, by have := hE.out.prime.two_le; omega⟩⟩

theorem ddhReal_hybrid (E : EcGroup G) [hE : Fact E.Lawful] (flip : G → Bool) {N : Nat}
    (S : (Fin N → G) → (Fin N → G) → Prop) [∀ h e, Decidable (S h e)] (j : Fin N) :
    ddhReal E (ddhAlg E flip S j) = prob (hybrid E flip S j.val) := by
  let e : (Draw E × Draw E × Coins E N) ≃ ((Draw E × Coins E N) × Draw E) :=
    { toFun := fun t => ((t.1, Function.update t.2.2.1 j t.2.1, t.2.2.2), t.2.2.1 j)
      invFun := fun t => (t.1.1, t.1.2.1 j, Function.update t.1.2.1 j t.2, t.1.2.2)
      left_inv := fun t => by simp
      right_inv := fun t => by simp }
  rw [← prob_fst (β := Draw E) (hybrid E flip S j.val), ← prob_equiv e]
  apply prob_congr
  rintro ⟨a, b, r, c⟩
  simp only [ddhAlg, hybrid, e, Equiv.coe_fn_mk]
  apply iff_of_eq
  congr 1
  · funext i
    by_cases hi : i = j
    · subst hi; simp [hashes]
    · simp [hashes, hi]
  · funext i
    by_cases hi : i = j
    · subst hi; simp [hashes, smul_signed]
    · have hv : i.val ≠ j.val := fun h => hi (Fin.ext h)
      simp only [hi, if_false, Fin.lt_def, hashes, Function.update_of_ne (show i ≠ j from hi),
        smul_signed]
      congr 2
      simp only [Draw.point, Draw.scalar, ← mul_zsmul]
      rw [mul_comm]

theorem ddhRand_hybrid (E : EcGroup G) [hE : Fact E.Lawful] (flip : G → Bool) {N : Nat}
    (S : (Fin N → G) → (Fin N → G) → Prop) [∀ h e, Decidable (S h e)] (j : Fin N) :
    ddhRand E (ddhAlg E flip S j) = prob (hybrid E flip S (j.val + 1)) := by
  let e : ((Draw E × Draw E × Draw E) × Coins E N) ≃
      ((Draw E × Coins E N) × (Draw E × Draw E)) :=
    { toFun := fun t => ((t.1.1, Function.update t.2.1 j t.1.2.1,
          Function.update t.2.2 j (negDraw (flip (t.1.2.1.point E)) t.1.2.2)), (t.2.1 j, t.2.2 j))
      invFun := fun t => ((t.1.1, t.1.2.1 j, negDraw (flip ((t.1.2.1 j).point E)) (t.1.2.2 j)),
          (Function.update t.1.2.1 j t.2.1, Function.update t.1.2.2 j t.2.2))
      left_inv := fun t => by simp [negDraw_negDraw]
      right_inv := fun t => by simp [negDraw_negDraw] }
  rw [← prob_fst (β := Draw E × Draw E) (hybrid E flip S (j.val + 1)), ← prob_equiv e]
  apply prob_congr
  rintro ⟨⟨a, b, z⟩, r, c⟩
  simp only [ddhAlg, hybrid, e, Equiv.coe_fn_mk]
  apply iff_of_eq
  congr 1
  · funext i
    by_cases hi : i = j
    · subst hi; simp [hashes]
    · simp [hashes, hi]
  · funext i
    by_cases hi : i = j
    · subst hi
      simp [point_negDraw hE.out, signed]
    · have hv : i.val ≠ j.val := fun h => hi (Fin.ext h)
      have hlt : (i.val < j.val + 1) ↔ i.val < j.val := by omega
      simp only [hi, if_false, Fin.lt_def, hashes, Function.update_of_ne (show i ≠ j from hi),
        smul_signed, hlt]
      congr 2
      simp only [Draw.point, Draw.scalar, ← mul_zsmul]
      rw [mul_comm]

/-- The core of the argument: any question about hash values and their encryptions under one random
key is answered as it is about hash values and independent random points, up to the sum of the
Diffie-Hellman advantages of the algorithms `ddhAlg`. -/
theorem encrypted_hashes (E : EcGroup G) [hE : Fact E.Lawful] (flip : G → Bool) {N : Nat}
    (S : (Fin N → G) → (Fin N → G) → Prop) [∀ h e, Decidable (S h e)] :
    prob (fun t : Draw E × (Fin N → Draw E) =>
        S (hashes E flip t.2) fun i => t.1.scalar • hashes E flip t.2 i) -
      prob (fun t : (Fin N → Draw E) × (Fin N → Draw E) =>
        S (hashes E flip t.1) fun i => (t.2 i).point E) =
      ∑ j : Fin N, ddhAdv E (ddhAlg E flip S j) := by
  have h0 : prob (fun t : Draw E × (Fin N → Draw E) =>
        S (hashes E flip t.2) fun i => t.1.scalar • hashes E flip t.2 i) =
      prob (hybrid E flip S 0) := by
    rw [← prob_fst (β := Fin N → Draw E) (fun t : Draw E × (Fin N → Draw E) =>
        S (hashes E flip t.2) fun i => t.1.scalar • hashes E flip t.2 i),
      ← prob_equiv (Equiv.prodAssoc _ _ _).symm]
    apply prob_congr
    rintro ⟨k, r, c⟩
    simp [hybrid]
  have hN : prob (fun t : (Fin N → Draw E) × (Fin N → Draw E) =>
        S (hashes E flip t.1) fun i => (t.2 i).point E) = prob (hybrid E flip S N) := by
    rw [← prob_snd (α := Draw E) (fun t : (Fin N → Draw E) × (Fin N → Draw E) =>
        S (hashes E flip t.1) fun i => (t.2 i).point E)]
    apply prob_congr
    rintro ⟨k, r, c⟩
    simp [hybrid]
  rw [h0, hN]
  have hs : ∀ j : Fin N, ddhAdv E (ddhAlg E flip S j) =
      prob (hybrid E flip S j.val) - prob (hybrid E flip S (j.val + 1)) := by
    intro j
    rw [ddhAdv, ddhReal_hybrid, ddhRand_hybrid]
  rw [Finset.sum_congr rfl fun j _ => hs j,
    Fin.sum_univ_eq_sum_range (fun j => prob (hybrid E flip S j) - prob (hybrid E flip S (j + 1))) N,
    Finset.sum_range_sub']

/-! ### The messages of the parties in terms of encrypted hash values -/

/-- The compressed encoding of a point (empty for infinity, which has none). -/
def encode (E : EcGroup G) (P : G) : Bytes := (E.point2oct P).getD []

theorem withOracle_lawful {E : EcGroup G} (hE : E.Lawful) {N : Nat} (ids : Fin N → Bytes)
    (H : Fin N → G) : (withOracle E ids H).Lawful :=
  ⟨hE.prime, hE.order_smul, hE.gen_ne, hE.encode_zero, hE.decode_encode⟩

theorem withOracle_hash (E : EcGroup G) {N : Nat} {ids : Fin N → Bytes}
    (hids : Function.Injective ids) (H : Fin N → G) (i : Fin N) :
    (withOracle E ids H).hashSha256 (ids i) = .ok (H i) := by
  simp only [withOracle]
  cases hf : (List.finRange N).find? fun j => decide (ids j = ids i) with
  | none =>
    have := List.find?_eq_none.1 hf i (List.mem_finRange i)
    simp at this
  | some j =>
    have := List.find?_some hf
    simp only [decide_eq_true_eq] at this
    rw [hids this]

theorem toBytes_encode {E : EcGroup G} (hE : E.Lawful) {P : G} (hP : P ≠ 0) :
    E.toBytesCompressed P = .ok (encode E P) ∧ E.createECPoint (encode E P) = .ok P := by
  obtain ⟨bs, h1, h2⟩ := hE.toBytes_ne hP
  have : encode E P = bs := by
    unfold EcGroup.toBytesCompressed at h1
    unfold encode
    split at h1
    · rename_i hb; cases h1; rw [hb]; rfl
    · cases h1
  rw [this]
  exact ⟨h1, h2⟩

theorem Draw.not_dvd {E : EcGroup G} (i : Draw E) : ¬ (E.order : Int) ∣ i.scalar := by
  intro h
  have h1 := i.isLt
  have := Int.le_of_dvd (by unfold Draw.scalar; omega) h
  unfold Draw.scalar at this
  omega

theorem Draw.point_ne {E : EcGroup G} (hE : E.Lawful) (i : Draw E) : i.point E ≠ 0 :=
  hE.zsmul_ne i.not_dvd hE.gen_ne

theorem signed_ne {flip : G → Bool} {Y X : G} (h : X ≠ 0) : signed flip Y X ≠ 0 := by
  unfold signed; split
  · exact neg_ne_zero.2 h
  · exact h

theorem hashes_ne {E : EcGroup G} (hE : E.Lawful) (flip : G → Bool) {N : Nat}
    (r : Fin N → Draw E) (i : Fin N) : hashes E flip r i ≠ 0 := signed_ne ((r i).point_ne hE)

/-- A cipher with a new key: the key is the scalar of the draw. -/
theorem createWithNewKey_draw {E : EcGroup G} (hE : E.Lawful) (w : Draw E) :
    ∃ K, EcCipher.createWithNewKey (.ok E) .sha256 w.val = .ok K ∧ K.group = E ∧
      K.privateKey = w.scalar ∧ K.hashType = .sha256 := by
  obtain ⟨K, hK, hK'⟩ := createWithNewKey_ok hE w.val
  refine ⟨K, hK, ?_⟩
  have h2 := hE.prime.two_le
  have hk : E.generatePrivateKey w.val = .ok w.scalar := by
    simp only [EcGroup.generatePrivateKey, Ctx.randBetween, Ctx.randLessThan]
    rw [if_pos (by omega), if_neg (by omega)]
    have := w.isLt
    have e : ((w.val : Nat) : Int) % ((E.order : Int) - 1) = w.val :=
      Int.emod_eq_of_lt (by omega) (by omega)
    simp only [Res.ok_bind, Res.pure_eq, Draw.scalar, e]
  simp only [EcCipher.createWithNewKey, Res.ok_bind, hk, EcCipher.validateHashType] at hK
  unfold EcCipher.make at hK
  cases hi : EcCipher.invertPrivateScalar w.scalar E.order with
  | ok v =>
    rw [hi] at hK
    simp at hK
    subst hK
    exact ⟨rfl, rfl, rfl⟩
  | err c => rw [hi] at hK; simp at hK
  | crash => rw [hi] at hK; simp at hK
  | ub => rw [hi] at hK; simp at hK

/-- What a cipher does under the oracle. -/
theorem cipher_oracle {E : EcGroup G} (hE : E.Lawful) {N : Nat} {ids : Fin N → Bytes}
    (hids : Function.Injective ids) {H : Fin N → G} (hH : ∀ i, H i ≠ 0) (w : Draw E)
    {K : EcCipher G} (h1 : K.group = withOracle E ids H) (h2 : K.privateKey = w.scalar)
    (h3 : K.hashType = .sha256) :
    (∀ i, K.encrypt (ids i) = .ok (encode E (w.scalar • H i))) ∧
    (∀ P : G, P ≠ 0 → K.reEncrypt (encode E P) = .ok (encode E (w.scalar • P))) := by
  have hE' := withOracle_lawful hE ids H
  have enc : ∀ P : G, P ≠ 0 → (withOracle E ids H).toBytesCompressed (w.scalar • P) =
      .ok (encode E (w.scalar • P)) := fun P hP =>
    (toBytes_encode hE' (hE.zsmul_ne w.not_dvd hP)).1
  constructor
  · intro i
    simp only [EcCipher.encrypt, EcCipher.hashToTheCurveInternal, h3, h1, withOracle_hash E hids,
      Res.ok_bind, EcCipher.encryptPoint, h2, enc _ (hH i)]
  · intro P hP
    have : (withOracle E ids H).createECPoint (encode E P) = .ok P := (toBytes_encode hE' hP).2
    simp only [EcCipher.reEncrypt, h1, this, Res.ok_bind, EcCipher.encryptPoint, h2, enc _ hP]

/-- The server's first message when the encrypted hash values are `e`. -/
def firstMessage (E : EcGroup G) {N : Nat} (own : List (Fin N)) (e : Fin N → G) : List ServerMsg :=
  [.roundOne (own.map fun i => ⟨encode E (e i), []⟩)]

/-- What the server sends first, in a run with the random oracle: `w` is the draw of its key, `r`
the draws of the hash values. -/
def serverSends (E : EcGroup G) (flip : G → Bool) {N : Nat} (ids : Fin N → Bytes)
    (own : List (Fin N)) (cfg : ExpCfg) (r1 : ServerRand) (w : Draw E) (r : Fin N → Draw E) :
    List ServerMsg :=
  ((Server.init cfg (.ok (withOracle E ids (hashes E flip r))) (own.map ids)).handle
    { r1 with keyWord := w.val } accept .start).sent

theorem serverSends_eq {E : EcGroup G} (hE : E.Lawful) (flip : G → Bool) {N : Nat}
    {ids : Fin N → Bytes} (hids : Function.Injective ids) (own : List (Fin N)) (cfg : ExpCfg)
    (r1 : ServerRand) (w : Draw E) (r : Fin N → Draw E) :
    serverSends E flip ids own cfg r1 w r =
      firstMessage E own fun i => w.scalar • hashes E flip r i := by
  have hE' := withOracle_lawful hE ids (hashes E flip r)
  obtain ⟨K, hK, k1, k2, k3⟩ := createWithNewKey_draw hE' w
  have hc := (cipher_oracle hE hids (hashes_ne hE flip r) w k1 k2 k3).1
  have hl : ∀ l : List (Fin N), Server.encryptLoop K (l.map ids) =
      .ok (l.map fun i => ⟨encode E (w.scalar • hashes E flip r i), []⟩) := by
    intro l
    induction l with
    | nil => rfl
    | cons i l ih =>
      simp only [List.map_cons, Server.encryptLoop, hc, ih, Res.ok_bind, Res.pure_eq]
  simp only [serverSends, Server.handle, Server.init, Server.encryptSet, hK, hl, firstMessage,
    Bool.false_eq_true, if_false]

/-! ### C104 -/

/-- **C104**.  Whatever question `S` the client asks about the hash values of all identifiers and the
server's first message, it gets the same answer about a message made of random points, which has
nothing to do with the server's list but its length, up to the Diffie-Hellman advantages of the
algorithms `ddhAlg`. -/
theorem C104_first_message (E : EcGroup G) [hE : Fact E.Lawful] (flip : G → Bool) {N : Nat}
    (ids : Fin N → Bytes) (hids : Function.Injective ids) (own : List (Fin N)) (cfg : ExpCfg)
    (r1 : ServerRand) (S : (Fin N → G) → List ServerMsg → Prop) [∀ h m, Decidable (S h m)] :
    prob (fun t : Draw E × (Fin N → Draw E) =>
        S (hashes E flip t.2) (serverSends E flip ids own cfg r1 t.1 t.2)) -
      prob (fun t : (Fin N → Draw E) × (Fin N → Draw E) =>
        S (hashes E flip t.1) (firstMessage E own fun i => (t.2 i).point E)) =
      ∑ j : Fin N, ddhAdv E (ddhAlg E flip (fun h e => S h (firstMessage E own e)) j) := by
  rw [← encrypted_hashes E flip fun h e => S h (firstMessage E own e)]
  congr 1
  apply prob_congr
  rintro ⟨w, r⟩
  simp only [serverSends_eq hE.out flip hids]

/-- Two lists without repetitions of the same length: a permutation leads from one to the other. -/
theorem exists_perm_map {N : Nat} {l l' : List (Fin N)} (h : l.Nodup) (h' : l'.Nodup)
    (hlen : l.length = l'.length) : ∃ π : Equiv.Perm (Fin N), l'.map π = l := by
  obtain ⟨π, hπ⟩ := Equiv.Perm.exists_extending_pair (fun i : Fin l.length => l'[i.val]'(by omega))
    (fun i : Fin l.length => l[i.val])
    (fun a b hab => Fin.ext ((List.Nodup.getElem_inj_iff h').1 hab))
    (fun a b hab => Fin.ext ((List.Nodup.getElem_inj_iff h).1 hab))
  refine ⟨π, List.ext_getElem (by simp [hlen]) fun i h1 h2 => ?_⟩
  rw [List.getElem_map]
  exact hπ ⟨i, h2⟩

/-- **C104**, as a comparison of two servers: if no algorithm of the family has an advantage above `δ`
in the Diffie-Hellman problem, no question about the first message tells two servers with lists of
the same length apart with an advantage above `2 N δ`. -/
theorem C104_two_servers (E : EcGroup G) [hE : Fact E.Lawful] (flip : G → Bool) {N : Nat}
    (ids : Fin N → Bytes) (hids : Function.Injective ids) (own own' : List (Fin N))
    (hnd : own.Nodup) (hnd' : own'.Nodup) (hlen : own.length = own'.length) (cfg : ExpCfg)
    (r1 r1' : ServerRand) (S : (Fin N → G) → List ServerMsg → Prop) [∀ h m, Decidable (S h m)]
    (δ : ℚ)
    (hδ : ∀ j, |ddhAdv E (ddhAlg E flip (fun h e => S h (firstMessage E own e)) j)| ≤ δ)
    (hδ' : ∀ j, |ddhAdv E (ddhAlg E flip (fun h e => S h (firstMessage E own' e)) j)| ≤ δ) :
    |prob (fun t : Draw E × (Fin N → Draw E) =>
        S (hashes E flip t.2) (serverSends E flip ids own cfg r1 t.1 t.2)) -
      prob (fun t : Draw E × (Fin N → Draw E) =>
        S (hashes E flip t.2) (serverSends E flip ids own' cfg r1' t.1 t.2))| ≤ 2 * N * δ := by
  have h1 := C104_first_message E flip ids hids own cfg r1 S
  have h2 := C104_first_message E flip ids hids own' cfg r1' S
  obtain ⟨π, hπ⟩ := exists_perm_map hnd hnd' hlen
  have hideal : prob (fun t : (Fin N → Draw E) × (Fin N → Draw E) =>
        S (hashes E flip t.1) (firstMessage E own fun i => (t.2 i).point E)) =
      prob (fun t : (Fin N → Draw E) × (Fin N → Draw E) =>
        S (hashes E flip t.1) (firstMessage E own' fun i => (t.2 i).point E)) := by
    rw [← prob_equiv (Equiv.prodCongr (Equiv.refl (Fin N → Draw E))
      (Equiv.arrowCongr π (Equiv.refl (Draw E))))]
    apply prob_congr
    rintro ⟨r, c⟩
    apply iff_of_eq
    congr 1
    simp only [firstMessage, ← hπ, List.map_map]
    congr 2
    refine List.map_congr_left fun i _ => ?_
    simp [Equiv.arrowCongr]
  have bound : ∀ f : Fin N → ℚ, (∀ j, |f j| ≤ δ) → |∑ j, f j| ≤ N * δ := by
    intro f hf
    refine (Finset.abs_sum_le_sum_abs _ _).trans ?_
    refine (Finset.sum_le_sum fun j _ => hf j).trans ?_
    simp
  have b1 := bound _ hδ
  have b2 := bound _ hδ'
  rw [← h1] at b1
  rw [← h2, ← hideal] at b2
  rw [abs_le] at b1 b2 ⊢
  constructor <;> linarith [b1.1, b1.2, b2.1, b2.2]

/-! ### The client's message -/

/-- Two primes that the client can use as its Paillier key. -/
structure GoodPrimes (p q : Nat) : Prop where
  safe_p : SafePrime p
  safe_q : SafePrime q
  gen_p : HasSmallGenerator p
  gen_q : HasSmallGenerator q
  two_lt_p : 2 < p
  two_lt_q : 2 < q
  ne : p ≠ q

/-- The bytes of the encryption of a value with the given draws. -/
def ciphertext (sk : PrivatePaillier) (v : Int) (d : Int × Int) : Bytes :=
  match sk.encrypt v d.1 d.2 with
  | .ok c => BN.natToBytes c.toNat
  | _ => []

/-- The ciphertexts of the client's values. -/
def ciphertexts (sk : PrivatePaillier) (vals : List Int) (draws : Nat → Int × Int) : List Bytes :=
  vals.mapIdx fun i v => ciphertext sk v (draws i)

/-- The client's message when the encrypted hash values are `e`, the ciphertexts `cts`, and `ws` is
the server's draw. -/
def clientMessage (E : EcGroup G) {N : Nat} (n : Nat) (sort : List EncElement → List EncElement)
    (own els : List (Fin N)) (cts : List Bytes) (ws : Draw E) (e : Fin N → G) : ClientRoundOne :=
  ⟨BN.natToBytes n, List.zipWith (fun i ct => ⟨encode E (e i), ct⟩) els cts,
    sort (own.map fun j => ⟨encode E (ws.scalar • e j), []⟩)⟩

/-- The client's message in a run of the code with the random oracle: `wc` and `ws` are the draws of
the client's and the server's key, `r` the draws of the hash values. -/
def clientSends (E : EcGroup G) (flip : G → Bool) {N : Nat} (ids : Fin N → Bytes)
    (own els : List (Fin N)) (vals : List Int) (p q : Nat) (cfg cfg' : ExpCfg) (r1 : ServerRand)
    (k1 : ClientRand) (ws wc : Draw E) (r : Fin N → Draw E) : Option ClientRoundOne :=
  match Client.init cfg (.ok (withOracle E ids (hashes E flip r))) (els.map ids) vals p q wc.val with
  | .ok c => (firstRound c
      (Server.init cfg' (.ok (withOracle E ids (hashes E flip r))) (own.map ids))
      { r1 with keyWord := ws.val } k1).map Prod.snd
  | _ => none

theorem ciphertext_ok {p q : Nat} (hk : GoodPrimes p q) {cfg : ExpCfg} {sk : PrivatePaillier}
    (hsk : PrivatePaillier.new cfg p q 2 = .ok sk) {v : Int} (h0 : 0 ≤ v)
    (h1 : v < ((p * q : Nat) : Int) ^ 2) {d : Int × Int} (hd : 0 ≤ d.1 ∧ 0 ≤ d.2) :
    ∃ c, sk.encrypt v d.1 d.2 = .ok c ∧ 0 ≤ c ∧ ciphertext sk v d = BN.natToBytes c.toNat := by
  obtain ⟨pk0, hpk0⟩ := (C11_keys_exist cfg p q 2 1 hk.safe_p hk.safe_q hk.ne hk.two_lt_p
    hk.two_lt_q hk.gen_p hk.gen_q (by norm_num)).1
  obtain ⟨-, hval, -⟩ := C13_validation cfg cfg p q 2 (by norm_num) 1 pk0 sk hpk0 hsk
  have := hval v d.1 d.2 hd.1 hd.2
  rw [if_pos ⟨h0, h1⟩] at this
  obtain ⟨c, hc⟩ := this
  refine ⟨c, hc, (made_ct (by simp) (PublicPaillier.new_good hpk0)
    (PrivatePaillier.new_good (by norm_num) hsk) (.privateEncrypt hd.1 hd.2 hc)).nonneg, ?_⟩
  rw [ciphertext, hc]

theorem encryptLoop_oracle {K : EcCipher G} {sk : PrivatePaillier} {E : EcGroup G} {N : Nat}
    {ids : Fin N → Bytes} {e : Fin N → G} (henc : ∀ i, K.encrypt (ids i) = .ok (encode E (e i)))
    {draws : Nat → Int × Int} {vals : List Int}
    (hct : ∀ v ∈ vals, ∀ i, ∃ c, sk.encrypt v (draws i).1 (draws i).2 = .ok c ∧ 0 ≤ c ∧
      ciphertext sk v (draws i) = BN.natToBytes c.toNat) :
    ∀ (as : List (Fin N)) (i : Nat), i + as.length ≤ vals.length →
      Client.encryptLoop K sk vals draws i (as.map ids) =
        .ok (List.zipWith (fun a ct => ⟨encode E (e a), ct⟩) as
          ((vals.drop i).mapIdx fun j v => ciphertext sk v (draws (i + j))))
  | [], i, _ => by simp [Client.encryptLoop]
  | a :: as, i, h => by
    simp only [List.length_cons] at h
    have hi : i < vals.length := by omega
    have ih := encryptLoop_oracle henc hct as (i + 1) (by omega)
    obtain ⟨c, c1, c2, c3⟩ := hct _ (List.getElem_mem hi) i
    simp only [List.map_cons, Client.encryptLoop, henc, Res.ok_bind, List.getElem?_eq_getElem hi,
      c1, BN.toBytes_of_nonneg c2, ih, Res.pure_eq]
    rw [List.drop_eq_getElem_cons hi, List.mapIdx_cons, List.zipWith_cons_cons, add_zero, c3]
    congr 4
    funext j v
    rw [show i + 1 + j = i + (j + 1) by ring]

theorem reEncryptLoop_oracle {K : EcCipher G} {E : EcGroup G} {k : Int}
    (hre : ∀ P : G, P ≠ 0 → K.reEncrypt (encode E P) = .ok (encode E (k • P))) {τ : Type}
    {e : τ → G} (he : ∀ i, e i ≠ 0) : ∀ l : List τ,
      Client.reEncryptLoop K (l.map fun i => ⟨encode E (e i), []⟩) =
        .ok (l.map fun i => ⟨encode E (k • e i), []⟩)
  | [] => rfl
  | i :: l => by
    simp only [List.map_cons, Client.reEncryptLoop, hre _ (he i), Res.ok_bind,
      reEncryptLoop_oracle hre he l, Res.pure_eq]

theorem clientSends_eq {E : EcGroup G} (hE : E.Lawful) (flip : G → Bool) {N : Nat}
    {ids : Fin N → Bytes} (hids : Function.Injective ids) (own els : List (Fin N))
    (vals : List Int) {p q : Nat} (hk : GoodPrimes p q) (hlen : vals.length = els.length)
    (hvals : ∀ v ∈ vals, 0 ≤ v ∧ v < ((p * q : Nat) : Int) ^ 2) (cfg cfg' : ExpCfg)
    (r1 : ServerRand) (k1 : ClientRand) (hd : ∀ i, 0 ≤ (k1.draws i).1 ∧ 0 ≤ (k1.draws i).2)
    {sk : PrivatePaillier} (hsk : PrivatePaillier.new cfg p q 2 = .ok sk) (ws wc : Draw E)
    (r : Fin N → Draw E) :
    clientSends E flip ids own els vals p q cfg cfg' r1 k1 ws wc r =
      some (clientMessage E (p * q) k1.sort own els (ciphertexts sk vals k1.draws) ws
        fun i => wc.scalar • hashes E flip r i) := by
  have hH := hashes_ne hE flip r
  have hE' := withOracle_lawful hE ids (hashes E flip r)
  obtain ⟨Kc, hKc, c1, c2, c3⟩ := createWithNewKey_draw hE' wc
  obtain ⟨Ks, hKs, k1', k2, k3⟩ := createWithNewKey_draw hE' ws
  have hsc := (cipher_oracle hE hids hH ws k1' k2 k3).1
  obtain ⟨hcc, hcr⟩ := cipher_oracle hE hids hH wc c1 c2 c3
  have hl : ∀ l : List (Fin N), Server.encryptLoop Ks (l.map ids) =
      .ok (l.map fun i => ⟨encode E (ws.scalar • hashes E flip r i), []⟩) := by
    intro l
    induction l with
    | nil => rfl
    | cons i l ih =>
      simp only [List.map_cons, Server.encryptLoop, hsc, ih, Res.ok_bind, Res.pure_eq]
  have a1 := encryptLoop_oracle (K := Kc) (sk := sk) (E := E) (ids := ids)
    (e := fun i => wc.scalar • hashes E flip r i) hcc
    (draws := k1.draws) (vals := vals) (fun v hv i => ciphertext_ok hk hsk (hvals v hv).1
      (hvals v hv).2 (hd i)) els 0 (by omega)
  have a2 := reEncryptLoop_oracle (K := Kc) (E := E) hcr
    (e := fun i => ws.scalar • hashes E flip r i) (fun i => hE.zsmul_ne ws.not_dvd (hH i)) own
  have epk : BN.toBytes ((p : Int) * q) = .ok (BN.natToBytes (p * q)) := by
    have : (p : Int) * q = ((p * q : Nat) : Int) := by push_cast; ring
    rw [this, BN.toBytes_of_nonneg (by positivity), Int.toNat_natCast]
  have hcomm : ∀ i, wc.scalar • ws.scalar • hashes E flip r i =
      ws.scalar • wc.scalar • hashes E flip r i := fun i => smul_comm _ _ _
  simp only [List.drop_zero, zero_add] at a1
  simp [clientSends, Client.init, hKc, Res.value, firstRound, Client.startProtocol, accept,
    Server.handle, Server.init, Server.encryptSet, hKs, hl, Client.handle, Client.reEncryptSet,
    hsk, epk, a1, a2, clientMessage, ciphertexts, hcomm]

/-! ### C105 -/

/-- **C105**.  Whatever question `S` the server asks about the hash values of all identifiers and the
client's message, it gets the same answer about a message made from random points `e`, up to the
Diffie-Hellman advantages of the algorithms `ddhAlg`. -/
theorem C105_client_message (E : EcGroup G) [hE : Fact E.Lawful] (flip : G → Bool) {N : Nat}
    (ids : Fin N → Bytes) (hids : Function.Injective ids) (own els : List (Fin N))
    (vals : List Int) {p q : Nat} (hk : GoodPrimes p q) (hlen : vals.length = els.length)
    (hvals : ∀ v ∈ vals, 0 ≤ v ∧ v < ((p * q : Nat) : Int) ^ 2) (cfg cfg' : ExpCfg)
    (r1 : ServerRand) (k1 : ClientRand) (hk1 : k1.Ok) (sk : PrivatePaillier)
    (hsk : PrivatePaillier.new cfg p q 2 = .ok sk) (ws : Draw E)
    (S : (Fin N → G) → Option ClientRoundOne → Prop) [∀ h m, Decidable (S h m)] :
    let msg := clientMessage E (p * q) k1.sort own els (ciphertexts sk vals k1.draws) ws
    prob (fun t : Draw E × (Fin N → Draw E) => S (hashes E flip t.2)
        (clientSends E flip ids own els vals p q cfg cfg' r1 k1 ws t.1 t.2)) -
      prob (fun t : (Fin N → Draw E) × (Fin N → Draw E) =>
        S (hashes E flip t.1) (some (msg fun i => (t.2 i).point E))) =
      ∑ j : Fin N, ddhAdv E (ddhAlg E flip (fun h e => S h (some (msg e))) j) := by
  intro msg
  rw [← encrypted_hashes E flip fun h e => S h (some (msg e))]
  congr 1
  apply prob_congr
  rintro ⟨w, r⟩
  simp only [clientSends_eq hE.out flip hids own els vals hk hlen hvals cfg cfg' r1 k1 hk1.draws hsk,
    msg]

/-- Two lists without repetitions of the same length that meet the list `own` at the same positions:
a permutation of the identifiers leads from one to the other and keeps `own`. -/
theorem exists_perm_own {N : Nat} {own l l' : List (Fin N)} (ho : own.Nodup) (h : l.Nodup)
    (h' : l'.Nodup) (hpat : l.map (fun i => decide (i ∈ own)) = l'.map (fun i => decide (i ∈ own))) :
    ∃ π : Equiv.Perm (Fin N), l'.map π = l ∧ (own.map π).Perm own := by
  have hlen : l.length = l'.length := by simpa using congrArg List.length hpat
  have hcount : ∀ m : List (Fin N), m.Nodup →
      (own.filter fun i => decide (i ∈ m)).length = (m.map fun i => decide (i ∈ own)).count true := by
    intro m hm
    have hp : (own.filter fun i => decide (i ∈ m)).Perm (m.filter fun i => decide (i ∈ own)) :=
      (List.perm_ext_iff_of_nodup (ho.filter _) (hm.filter _)).2 fun i => by
        simp [and_comm]
    rw [hp.length_eq, List.count, List.countP_map, List.countP_eq_length_filter]
    congr 1
    apply List.filter_congr
    intro i _
    simp
  have hsplit : ∀ m : List (Fin N), (own.filter fun i => decide (i ∈ m)).length +
      (own.filter fun i => decide (i ∉ m)).length = own.length := by
    intro m
    have := List.length_eq_length_filter_add (l := own) fun i => decide (i ∈ m)
    rw [this]
    congr 2
    apply List.filter_congr
    intro i _
    simp
  have hA : (own.filter fun i => decide (i ∉ l)).length =
      (own.filter fun i => decide (i ∉ l')).length := by
    have e1 := hcount l h
    have e2 := hcount l' h'
    rw [hpat] at e1
    have := hsplit l
    have := hsplit l'
    omega
  have nd : ∀ m : List (Fin N), m.Nodup → (m ++ own.filter fun i => decide (i ∉ m)).Nodup :=
    fun m hm => List.nodup_append.2 ⟨hm, ho.filter _, by
      intro a ha b hb hab
      subst hab
      simp only [List.mem_filter, decide_eq_true_eq] at hb
      exact hb.2 ha⟩
  obtain ⟨π, hπ⟩ := exists_perm_map (nd l h) (nd l' h') (by
    simp only [List.length_append, hlen, hA])
  rw [List.map_append] at hπ
  obtain ⟨h1, h2⟩ := List.append_inj hπ (by simp [hlen])
  refine ⟨π, h1, ?_⟩
  have hsub : ∀ j ∈ own, π j ∈ own := by
    intro j hj
    by_cases hjl : j ∈ l'
    · obtain ⟨i, hi, rfl⟩ := List.mem_iff_getElem.1 hjl
      have e1 : π l'[i] = l[i]'(by omega) := by
        have := List.getElem_map (l := l') π (i := i) (h := by simpa using hi)
        rw [← this]
        simp only [h1]
      have e2 : decide (l[i]'(by omega) ∈ own) = decide (l'[i] ∈ own) := by
        have a := List.getElem_map (l := l) (fun i => decide (i ∈ own)) (i := i)
          (h := by simpa using (by omega : i < l.length))
        have b := List.getElem_map (l := l') (fun i => decide (i ∈ own)) (i := i)
          (h := by simpa using hi)
        rw [← a, ← b]
        simp only [hpat]
      rw [e1]
      have := decide_eq_decide.1 e2
      exact this.2 hj
    · have : π j ∈ (own.filter fun i => decide (i ∉ l')).map π :=
        List.mem_map_of_mem (by simp [hj, hjl])
      rw [h2] at this
      exact (List.mem_filter.1 this).1
  have ndm : (own.map π).Nodup := ho.map π.injective
  exact (List.subperm_of_subset ndm fun x hx => by
    obtain ⟨j, hj, rfl⟩ := List.mem_map.1 hx
    exact hsub j hj).perm_of_length_le (by simp)

/-- With random points, the messages of two clients whose lists meet the server's at the same
positions are distributed alike. -/
theorem clientMessage_alike (E : EcGroup G) [hE : Fact E.Lawful] (flip : G → Bool) {N : Nat}
    {own els els' : List (Fin N)} (ho : own.Nodup) (hnd : els.Nodup) (hnd' : els'.Nodup)
    (hpat : els.map (fun i => decide (i ∈ own)) = els'.map (fun i => decide (i ∈ own)))
    (n : Nat) {sort : List EncElement → List EncElement} (hsort : IsSort sort)
    (cts : List Bytes) (ws : Draw E)
    (S : (Fin N → G) → Option ClientRoundOne → Prop) [∀ h m, Decidable (S h m)] :
    prob (fun t : (Fin N → Draw E) × (Fin N → Draw E) => S (hashes E flip t.1)
        (some (clientMessage E n sort own els cts ws fun i => (t.2 i).point E))) =
      prob (fun t : (Fin N → Draw E) × (Fin N → Draw E) => S (hashes E flip t.1)
        (some (clientMessage E n sort own els' cts ws fun i => (t.2 i).point E))) := by
  obtain ⟨π, hπ, hown⟩ := exists_perm_own ho hnd hnd' hpat
  rw [← prob_equiv (Equiv.prodCongr (Equiv.refl (Fin N → Draw E))
    (Equiv.arrowCongr π (Equiv.refl (Draw E))))]
  apply prob_congr
  rintro ⟨r, c⟩
  apply iff_of_eq
  congr 2
  simp only [clientMessage, ClientRoundOne.mk.injEq, true_and]
  constructor
  · rw [← hπ, List.zipWith_map_left]
    simp [Equiv.arrowCongr]
  · apply sorted_data_nil_eq (hsort.sorted _) (hsort.sorted _)
    · refine (hsort.perm _).trans (List.Perm.trans ?_ (hsort.perm _).symm)
      refine (hown.symm.map _).trans ?_
      rw [List.map_map]
      apply List.Perm.of_eq
      apply List.map_congr_left
      intro i _
      simp [Equiv.arrowCongr]
    · intro x hx
      rw [(hsort.perm _).mem_iff] at hx
      obtain ⟨j, -, rfl⟩ := List.mem_map.1 hx
      rfl

/-- **C105**, as a comparison of two clients with the same values whose lists meet the server's at the
same positions. -/
theorem C105_two_clients (E : EcGroup G) [hE : Fact E.Lawful] (flip : G → Bool) {N : Nat}
    (ids : Fin N → Bytes) (hids : Function.Injective ids) (own els els' : List (Fin N))
    (ho : own.Nodup) (hnd : els.Nodup) (hnd' : els'.Nodup)
    (hpat : els.map (fun i => decide (i ∈ own)) = els'.map (fun i => decide (i ∈ own)))
    (vals : List Int) {p q : Nat} (hk : GoodPrimes p q) (hlen : vals.length = els.length)
    (hvals : ∀ v ∈ vals, 0 ≤ v ∧ v < ((p * q : Nat) : Int) ^ 2) (cfg cfg' : ExpCfg)
    (r1 : ServerRand) (k1 : ClientRand) (hk1 : k1.Ok) (sk : PrivatePaillier)
    (hsk : PrivatePaillier.new cfg p q 2 = .ok sk) (ws : Draw E)
    (S : (Fin N → G) → Option ClientRoundOne → Prop) [∀ h m, Decidable (S h m)] (δ : ℚ)
    (hδ : ∀ l, l = els ∨ l = els' → ∀ j, |ddhAdv E (ddhAlg E flip (fun h e => S h (some
      (clientMessage E (p * q) k1.sort own l (ciphertexts sk vals k1.draws) ws e))) j)| ≤ δ) :
    |prob (fun t : Draw E × (Fin N → Draw E) => S (hashes E flip t.2)
        (clientSends E flip ids own els vals p q cfg cfg' r1 k1 ws t.1 t.2)) -
      prob (fun t : Draw E × (Fin N → Draw E) => S (hashes E flip t.2)
        (clientSends E flip ids own els' vals p q cfg cfg' r1 k1 ws t.1 t.2))| ≤ 2 * N * δ := by
  have hl : els.length = els'.length := by simpa using congrArg List.length hpat
  have h1 := C105_client_message E flip ids hids own els vals hk hlen hvals cfg cfg' r1 k1 hk1 sk
    hsk ws S
  have h2 := C105_client_message E flip ids hids own els' vals hk (hlen.trans hl) hvals cfg cfg' r1
    k1 hk1 sk hsk ws S
  have hideal := clientMessage_alike E flip ho hnd hnd' hpat (p * q) hk1.sort
    (ciphertexts sk vals k1.draws) ws S
  have bound : ∀ f : Fin N → ℚ, (∀ j, |f j| ≤ δ) → |∑ j, f j| ≤ N * δ := by
    intro f hf
    refine (Finset.abs_sum_le_sum_abs _ _).trans ?_
    refine (Finset.sum_le_sum fun j _ => hf j).trans ?_
    simp
  have b1 := bound _ (hδ els (.inl rfl))
  have b2 := bound _ (hδ els' (.inr rfl))
  rw [← h1] at b1
  rw [← h2, ← hideal] at b2
  rw [abs_le] at b1 b2 ⊢
  constructor <;> linarith [b1.1, b1.2, b2.1, b2.2]

theorem encode_inj {E : EcGroup G} (hE : E.Lawful) {P Q : G} (hP : P ≠ 0) (hQ : Q ≠ 0)
    (h : encode E P = encode E Q) : P = Q := by
  have h1 := (toBytes_encode hE hP).2
  rw [h, (toBytes_encode hE hQ).2] at h1
  exact (Res.ok.inj h1).symm

theorem smul_inj {E : EcGroup G} (hE : E.Lawful) (w : Draw E) {P Q : G}
    (h : w.scalar • P = w.scalar • Q) : P = Q := by
  by_contra hne
  exact hE.zsmul_ne w.not_dvd (sub_ne_zero.2 hne) (by rw [zsmul_sub, h, sub_self])

theorem server_reEncryptLoop_oracle {K : EcCipher G} {E : EcGroup G} {k : Int}
    (hre : ∀ P : G, P ≠ 0 → K.reEncrypt (encode E P) = .ok (encode E (k • P))) {τ : Type}
    {e : τ → G} (he : ∀ i, e i ≠ 0) : ∀ (l : List τ) (cts : List Bytes),
      Server.reEncryptLoop K (List.zipWith (fun i ct => ⟨encode E (e i), ct⟩) l cts) =
        .ok (List.zipWith (fun i ct => ⟨encode E (k • e i), ct⟩) l cts)
  | [], _ => rfl
  | _ :: _, [] => rfl
  | i :: l, ct :: cts => by
    simp only [List.zipWith_cons_cons, Server.reEncryptLoop, hre _ (he i), Res.ok_bind,
      server_reEncryptLoop_oracle hre he l cts, Res.pure_eq]

/-- **C105**, what the condition on the positions is for: the server does learn at which positions of
the client's list the common identifiers are.  It multiplies the points of the client's own set with
its key, as it does anyway, and looks them up in the other set; the client sends its own set in the
order of its input. -/
theorem C105_positions_known (E : EcGroup G) (hE : E.Lawful) (flip : G → Bool) {N : Nat}
    (ids : Fin N → Bytes) (hids : Function.Injective ids) (own els : List (Fin N))
    (vals : List Int) {p q : Nat} (hk : GoodPrimes p q) (hlen : vals.length = els.length)
    (hvals : ∀ v ∈ vals, 0 ≤ v ∧ v < ((p * q : Nat) : Int) ^ 2) (cfg cfg' : ExpCfg)
    (r1 : ServerRand) (k1 : ClientRand) (hk1 : k1.Ok) (ws wc : Draw E) (r : Fin N → Draw E)
    (hinj : Function.Injective (hashes E flip r)) :
    ∃ m K L, clientSends E flip ids own els vals p q cfg cfg' r1 k1 ws wc r = some m ∧
      EcCipher.createWithNewKey (.ok (withOracle E ids (hashes E flip r))) .sha256 ws.val = .ok K ∧
      Server.reEncryptLoop K m.encryptedSet = .ok L ∧
      L.map (fun x => decide (x.element ∈ m.reencryptedSet.map fun y => y.element)) =
        els.map (fun i => decide (i ∈ own)) := by
  obtain ⟨-, sk, hsk, -⟩ := C11_keys_exist cfg p q 2 1 hk.safe_p hk.safe_q hk.ne hk.two_lt_p
    hk.two_lt_q hk.gen_p hk.gen_q (by norm_num)
  have hH := hashes_ne hE flip r
  have hE' := withOracle_lawful hE ids (hashes E flip r)
  obtain ⟨K, hK, c1, c2, c3⟩ := createWithNewKey_draw hE' ws
  have hre := (cipher_oracle hE hids hH ws c1 c2 c3).2
  have he : ∀ i, wc.scalar • hashes E flip r i ≠ 0 := fun i => hE.zsmul_ne wc.not_dvd (hH i)
  have he' : ∀ i, ws.scalar • wc.scalar • hashes E flip r i ≠ 0 :=
    fun i => hE.zsmul_ne ws.not_dvd (he i)
  refine ⟨_, K, _, clientSends_eq hE flip hids own els vals hk hlen hvals cfg cfg' r1 k1 hk1.draws
    hsk ws wc r, hK, server_reEncryptLoop_oracle hre he els _, ?_⟩
  have hmem : ∀ i : Fin N, (encode E (ws.scalar • wc.scalar • hashes E flip r i) ∈
      (clientMessage E (p * q) k1.sort own els (ciphertexts sk vals k1.draws) ws
        fun i => wc.scalar • hashes E flip r i).reencryptedSet.map fun y => y.element) ↔ i ∈ own := by
    intro i
    simp only [clientMessage]
    rw [((hk1.sort.perm _).map _).mem_iff, List.map_map, List.mem_map]
    constructor
    · rintro ⟨j, hj, hji⟩
      have := hinj (smul_inj hE wc (smul_inj hE ws (encode_inj hE (he' j) (he' i) hji)))
      exact this ▸ hj
    · exact fun hi => ⟨i, hi, rfl⟩
  rw [List.map_zipWith]
  simp only [hmem]
  have hcl : (ciphertexts sk vals k1.draws).length = els.length := by simp [ciphertexts, hlen]
  generalize ciphertexts sk vals k1.draws = cts at hcl
  clear hmem he he' hinj
  induction els generalizing cts vals with
  | nil => simp
  | cons i els ih =>
    cases cts with
    | nil => simp at hcl
    | cons ct cts =>
      have := ih (vals.drop 1) (by simp [hlen]) (fun v hv => hvals v (List.mem_of_mem_drop hv)) cts
        (by simpa using hcl)
      simpa using this

/-! ### Examples -/

instance toyEc_fact : Fact toyEc.Lawful := ⟨toyEc_lawful⟩

/-- In the toy group of order 11 the Diffie-Hellman problem is easy: the algorithm that checks
`Z = XY` has advantage 9/10.  So the advantage is not always 0. -/
example : ddhAdv toyEc (fun X Y Z (_ : Unit) => Z = X * Y) = 9 / 10 := by
  unfold ddhAdv ddhReal ddhRand prob
  have h1 : (Finset.univ.filter fun t : Draw toyEc × Draw toyEc × Unit =>
      t.1.scalar • t.2.1.point toyEc = t.1.point toyEc * t.2.1.point toyEc).card = 100 := by
    decide +kernel
  have h2 : (Finset.univ.filter fun t : (Draw toyEc × Draw toyEc × Draw toyEc) × Unit =>
      t.1.2.2.point toyEc = t.1.1.point toyEc * t.1.2.1.point toyEc).card = 100 := by
    decide +kernel
  have c1 : Fintype.card (Draw toyEc × Draw toyEc × Unit) = 100 := by decide +kernel
  have c2 : Fintype.card ((Draw toyEc × Draw toyEc × Draw toyEc) × Unit) = 1000 := by
    decide +kernel
  rw [h1, h2, c1, c2]
  norm_num

/-- Identifiers of the examples: one byte each. -/
def toyIds (N : Nat) (i : Fin N) : Bytes := [Fin.ofNat 256 i.val]

theorem toyIds_inj : Function.Injective (toyIds 4) := by decide

theorem goodPrimes_toy : GoodPrimes 7 11 where
  safe_p := ⟨by norm_num, rfl, by norm_num⟩
  safe_q := ⟨by norm_num, rfl, by norm_num⟩
  gen_p := ⟨3, by norm_num, by norm_num, by norm_num⟩
  gen_q := ⟨2, by norm_num, by norm_num, by norm_num⟩
  two_lt_p := by norm_num
  two_lt_q := by norm_num
  ne := by norm_num

/-- The signs of the toy hashes: odd points are negated. -/
def toyFlip (P : ZMod 11) : Bool := P.val % 2 == 1

/-- Two servers with two of four identifiers each (the toy group is small, so all that is known of
the advantages is that they are at most 1). -/
example (cfg : ExpCfg) (r1 : ServerRand) :=
  C104_two_servers toyEc toyFlip (toyIds 4) toyIds_inj [0, 1] [2, 1] (by decide) (by decide) rfl cfg
    r1 r1 (fun h m => m = [.roundOne [⟨encode toyEc (h 0), []⟩]]) 1
    (fun _ => abs_prob_sub_le_one _ _) (fun _ => abs_prob_sub_le_one _ _)

/-- Two clients that have the server's identifier 1 at the second position, and identifiers 0 and 3
or 2 and 0 besides. -/
example (cfg : ExpCfg) (r1 : ServerRand) (sk : PrivatePaillier)
    (hsk : PrivatePaillier.new cfg (7 : Nat) (11 : Nat) 2 = .ok sk) (ws : Draw toyEc) :=
  C105_two_clients toyEc toyFlip (toyIds 4) toyIds_inj [1] [0, 1, 3] [2, 1, 0] (by decide)
    (by decide) (by decide) (by decide) [5, 9, 2] goodPrimes_toy rfl (by decide) cfg cfg r1
    toyClientRand toyClientRand_ok sk hsk ws (fun h m => m.map (fun m => m.encryptedSet.length) =
      some (h 0).val) 1 (fun _ _ _ => abs_prob_sub_le_one _ _)

/-- The positions: second of three. -/
example (cfg : ExpCfg) (r1 : ServerRand) :=
  C105_positions_known toyEc toyEc_lawful toyFlip (toyIds 4) toyIds_inj [1] [0, 1, 3] [5, 9, 2]
    goodPrimes_toy rfl (by decide) cfg cfg r1 toyClientRand toyClientRand_ok (3 : Fin 10)
    (4 : Fin 10) (fun i => show Fin 10 from ⟨2 * i.val + 1, by omega⟩) (by decide)

end PJC.Protocol
