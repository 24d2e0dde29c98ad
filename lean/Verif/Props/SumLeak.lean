import Verif.Lemmas.Jacobi
import Verif.Lemmas.StatBad
import Verif.Props.Protocol
/-
C103: what the server's answer tells the client besides the size and the sum.

Specification: `firstRound` runs the protocol up to the client's message, `reply` is what the server
sends next.  The server's draws in that call are a number `x` coprime to the modulus `n` (from which
the public generator `-x² mod n` is made) and a number `r` below `n`.  `symbol` is the product of the
Jacobi symbols modulo `n` of the ciphertexts the client sent for the identifiers in the intersection;
the Jacobi symbol of a number modulo `n` can be computed without the factors of `n`.
-/
set_option linter.unusedSectionVars false
namespace PJC.Protocol
open PJC.Props PJC.DJ PJC.Stat

variable {G : Type} [AddCommGroup G] [DecidableEq G]

/-! ### Specification -/

/-- The protocol up to the client's message: the server object then, and that message. -/
def firstRound (c : Client G) (s : Server G) (r1 : ServerRand) (k1 : ClientRand) :
    Option (Server G × ClientRoundOne) :=
  match c.startProtocol accept with
  | ⟨c0, [m0], .ok ()⟩ =>
    match s.handle r1 accept m0 with
    | ⟨s1, [m1], .ok ()⟩ =>
      match c0.handle k1 accept m1 with
      | ⟨_, [.roundOne m2], .ok ()⟩ => some (s1, m2)
      | _ => none
    | _ => none
  | _ => none

/-- What the server sends when it receives the client's message. -/
def reply (s : Server G) (r2 : ServerRand) (m : ClientRoundOne) : List ServerMsg :=
  (s.handle r2 accept (.roundOne m)).sent

/-- The product of the Jacobi symbols of the ciphertexts of the intersection. -/
def symbol (els inputs : List Bytes) (n : Nat) (m : ClientRoundOne) : Int :=
  (((els.zip m.encryptedSet).filter fun t => decide (t.1 ∈ inputs)).map
    fun t => jacobiSym (BN.ofBytes t.2.data) n).prod

/-- The server's draws with the two Paillier draws replaced. -/
def ServerRand.withDraws (r : ServerRand) (d : Nat × Nat) : ServerRand :=
  { r with relPrime := fun _ => (d.1 : Int), lessThan := fun _ => (d.2 : Int) }

/-- The possible values of the two draws for the modulus `n`, all equally likely. -/
def PaillierDraws (n : Nat) : Finset (Nat × Nat) :=
  ((Finset.range n).filter fun x => n.Coprime x) ×ˢ Finset.range n

/-- The sum of the values of the common identifiers. -/
def commonSum (els : List Bytes) (vals : List Int) (inputs : List Bytes) : Int :=
  (((els.zip vals).filter fun t => decide (t.1 ∈ inputs)).map Prod.snd).sum

/-- The number of common identifiers. -/
def commonSize (els inputs : List Bytes) : Nat := (els.filter fun a => decide (a ∈ inputs)).length

/-! ### The messages of a run -/

theorem foldl_add {pk : PublicPaillier} {τ : Type} (ct : τ → Int) : ∀ (T : List τ) (z : Int),
    0 ≤ z → z < pk.modulus →
    T.foldl (fun acc t => pk.add acc (ct t)) z = z * (T.map ct).prod % pk.modulus
  | [], z, h0, h1 => by simp [Int.emod_eq_of_lt h0 h1]
  | t :: T, z, h0, h1 => by
    have hpos : 0 < pk.modulus := by omega
    have := foldl_add (pk := pk) ct T (pk.add z (ct t)) (Int.emod_nonneg _ hpos.ne')
      (Int.emod_lt_of_pos _ hpos)
    rw [List.foldl_cons, this, List.map_cons, List.prod_cons, PublicPaillier.add]
    exact ((emod_modEq (z * ct t) pk.modulus).mul_right _).trans (meq_of_eq (by ring))

/-- The client's own set, with the draws of each entry. -/
theorem client_encryptLoop' {K : EcCipher G} {sk : PrivatePaillier} {e : Bytes → Bytes}
    {draws : Nat → BigNum × BigNum} {values : List BigNum} {B : Int}
    (hd : ∀ i, 0 ≤ (draws i).1 ∧ 0 ≤ (draws i).2)
    (henc : ∀ v rp rq, 0 ≤ v → v < B → 0 ≤ rp → 0 ≤ rq → ∃ c, sk.encrypt v rp rq = .ok c ∧ 0 ≤ c)
    (hv : ∀ v ∈ values, 0 ≤ v ∧ v < B) :
    ∀ (as : List Bytes) (i : Nat), i + as.length ≤ values.length →
    (∀ a ∈ as, K.encrypt a = .ok (e a)) →
    ∃ T : List (Bytes × BigNum × BigNum),
      Client.encryptLoop K sk values draws i as =
        .ok (T.map fun t => ⟨e t.1, BN.natToBytes t.2.2.toNat⟩) ∧
      T.map (fun t => (t.1, t.2.1)) = as.zip (values.drop i) ∧
      T.map (fun t => t.1) = as ∧
      ∀ j (hj : j < T.length), sk.encrypt T[j].2.1 (draws (i + j)).1 (draws (i + j)).2 =
        .ok T[j].2.2
  | [], _, _, _ => ⟨[], rfl, by simp, rfl, by simp⟩
  | a :: as, i, hlen, h => by
    simp only [List.length_cons] at hlen
    have hi : i < values.length := by omega
    have hmem : values[i] ∈ values := List.getElem_mem hi
    obtain ⟨c, hc, hc0⟩ := henc values[i] (draws i).1 (draws i).2 (hv _ hmem).1 (hv _ hmem).2
      (hd i).1 (hd i).2
    obtain ⟨T, h1, h2, h3, h4⟩ := client_encryptLoop' hd henc hv as (i + 1) (by omega)
      (fun b hb => h b (by simp [hb]))
    refine ⟨(a, values[i], c) :: T, ?_, ?_, ?_, ?_⟩
    · simp only [Client.encryptLoop, h a (by simp), Res.ok_bind,
        List.getElem?_eq_getElem hi, hc, BN.toBytes_of_nonneg hc0, h1, Res.pure_eq,
        List.map_cons]
    · rw [List.map_cons, h2, List.drop_eq_getElem_cons hi, List.zip_cons_cons]
    · rw [List.map_cons, h3]
    · intro j hj
      cases j with
      | zero => simpa using hc
      | succ j =>
        have := h4 j (by simpa using hj)
        rw [show i + 1 + j = i + (j + 1) by ring] at this
        simpa using this

theorem messages_spec {E : EcGroup G} {els : List Bytes} {vals : List Int}
    {inputs : List Bytes} {p q : Nat} (h : Setup E els vals inputs p q) (hnd : els.Nodup)
    (cfg cfg' : ExpCfg) (w : Nat) (c : Client G)
    (hc : Client.init cfg (.ok E) els vals p q w = .ok c)
    (r1 : ServerRand) (k1 : ClientRand) (hk1 : k1.Ok) :
    ∃ s1 m sk, ∃ T0 : List (Bytes × Int × Int),
      firstRound c (Server.init cfg' (.ok E) inputs) r1 k1 = some (s1, m) ∧
      PrivatePaillier.new cfg p q 2 = .ok sk ∧
      T0.map (fun t => (t.1, t.2.1)) = els.zip vals ∧ T0.map (fun t => t.1) = els ∧
      (∀ t ∈ T0, 0 ≤ t.2.2) ∧
      (∀ i (hi : i < T0.length), sk.encrypt T0[i].2.1 (k1.draws i).1 (k1.draws i).2 =
        .ok T0[i].2.2) ∧
      (∃ e : Bytes → Bytes,
        m.encryptedSet = T0.map fun t => ⟨e t.1, BN.natToBytes t.2.2.toNat⟩) ∧
      ∀ r2 : ServerRand, IsSort r2.sortClient → IsSort r2.sortServer →
        Int.gcd (r2.relPrime ((p * q : Nat) : Int)) ((p * q : Nat) : Int) = 1 →
        0 ≤ r2.lessThan ((p * q : Nat) : Int) →
        r2.lessThan ((p * q : Nat) : Int) < ((p * q : Nat) : Int) →
        ∃ z : Int, z ≡ ((((p * q : Nat) : Int) - r2.relPrime ((p * q : Nat) : Int) *
              r2.relPrime ((p * q : Nat) : Int) % ((p * q : Nat) : Int)) ^
              (r2.lessThan ((p * q : Nat) : Int)).toNat) ^ (p * q) ^ 2
              [ZMOD ((p * q : Nat) : Int) ^ 3] ∧
          reply s1 r2 m = [.roundTwo ⟨commonSize els inputs, BN.natToBytes
            (z * ((T0.filter fun t => decide (t.1 ∈ inputs)).map fun t => t.2.2).prod %
              ((p * q : Nat) : Int) ^ 3).toNat⟩] := by
  obtain ⟨hE, hhash, hcoll, hlen, hvals, sp, sq, gp, gq, p2, q2, hpq⟩ := h
  obtain ⟨Kc, hKc, hinit⟩ := Client.init_ok hE cfg els vals p q w
  rw [hinit] at hc
  cases hc
  obtain ⟨Ks, hKs, hKs'⟩ := createWithNewKey_ok hE r1.keyWord
  obtain ⟨e, e', f, hef, hinj⟩ := double_encryption hE hKc hKs' (fun a => a ∈ els ++ inputs)
    hhash (fun a b ha hb => hcoll a ha b hb)
  have Npos : 0 < p * q := Nat.mul_pos sp.1.pos sq.1.pos
  have NposI : (0 : Int) < ((p * q : Nat) : Int) := by exact_mod_cast Npos
  generalize hN : ((p * q : Nat) : Int) = N at *
  obtain ⟨-, sk, hsk, -⟩ := C11_keys_exist cfg p q 2 1 sp sq hpq p2 q2 gp gq (by norm_num)
  obtain ⟨pk0, hpk0⟩ := (C11_keys_exist cfg' p q 2 1 sp sq hpq p2 q2 gp gq (by norm_num)).1
  obtain ⟨-, hval, -⟩ := C13_validation cfg' cfg p q 2 (by norm_num) 1 pk0 sk hpk0 hsk
  have S := PrivatePaillier.new_good (by norm_num) hsk
  have made : ∀ {m rp rq ct}, 0 ≤ rp → 0 ≤ rq → sk.encrypt m rp rq = .ok ct → 0 ≤ ct :=
    fun h1 h2 hm => (made_ct (by simp) (PublicPaillier.new_good hpk0) S
      (.privateEncrypt h1 h2 hm)).nonneg
  -- the client's own set
  obtain ⟨T0, t1, t2, t3, t4⟩ := client_encryptLoop' (K := Kc) (sk := sk) (e := e)
    (draws := k1.draws) (values := vals) (B := N ^ 2) hk1.draws
    (fun v rp rq h0 h1 hp hq => by
      have := hval v rp rq hp hq
      rw [hN, if_pos ⟨h0, h1⟩] at this
      obtain ⟨ct, hct⟩ := this
      exact ⟨ct, hct, made hp hq hct⟩)
    hvals els 0 (by omega) (fun a ha => (hef a (by simp [ha])).1)
  -- the server's set
  have s1 := server_encryptLoop (K := Ks) (e := e') inputs
    (fun a ha => (hef a (by simp [ha])).2.2.1)
  have s2 := client_reEncryptLoop (K := Kc) (e := e') (f := f) inputs
    (fun a ha => (hef a (by simp [ha])).2.2.2)
  have s3 := server_reEncryptLoop (K := Ks) (key := fun t : Bytes × Int × Int => t.1)
    (dat := fun t => BN.natToBytes t.2.2.toNat) (e := e) (f := f) T0
    (fun t ht => (hef t.1 (by
      have : t.1 ∈ els := t3 ▸ List.mem_map_of_mem ht
      simp [this])).2.1)
  set re : List EncElement := inputs.map fun a => ⟨f a, []⟩ with hre
  obtain ⟨S1, hS1, eS1⟩ := perm_map_lift (fun a : Bytes => (⟨f a, []⟩ : EncElement))
    (hk1.sort.perm re)
  have hmem : ∀ a, a ∈ T0.map (fun t => t.1) ∨ a ∈ S1 → a ∈ els ++ inputs := by
    intro a ha
    rcases ha with ha | ha
    · rw [t3] at ha; simp [ha]
    · rw [hS1.mem_iff] at ha; simp [ha]
  let c0 : Client G := ⟨cfg, els, vals, p, q, Kc, none, 0, 0, false⟩
  let c1 : Client G := ⟨cfg, els, vals, p, q, Kc, some sk, 0, 0, false⟩
  let s1' : Server G := ⟨cfg', .ok E, inputs, some Ks, false⟩
  let m2 : ClientRoundOne := ⟨BN.natToBytes N.toNat,
    T0.map fun t => ⟨e t.1, BN.natToBytes t.2.2.toNat⟩, k1.sort re⟩
  refine ⟨s1', m2, sk, T0, ?_, hsk, by simpa using t2, t3, fun t ht => ?_, ?_, ⟨e, rfl⟩, ?_⟩
  · have a1 : c0.startProtocol accept = ⟨c0, [.start], .ok ()⟩ := rfl
    have a2 : Server.handle (Server.init cfg' (.ok E) inputs) r1 accept .start =
        ⟨s1', [.roundOne (inputs.map fun a => ⟨e' a, []⟩)], .ok ()⟩ := by
      simp [Server.handle, Server.init, Server.encryptSet, hKs, s1, accept, s1']
    have a3 : c0.handle k1 accept (.roundOne (inputs.map fun a => ⟨e' a, []⟩)) =
        ⟨c1, [.roundOne m2], .ok ()⟩ := by
      have epk : BN.toBytes ((p : Int) * q) = .ok (BN.natToBytes N.toNat) := by
        have : (p : Int) * q = N := by rw [← hN]; push_cast; ring
        rw [this, BN.toBytes_of_nonneg NposI.le]
      simp [Client.handle, Client.reEncryptSet, hsk, epk, t1, s2, accept, c0, c1, m2]
    show firstRound c0 (Server.init cfg' (.ok E) inputs) r1 k1 = _
    unfold firstRound
    rw [a1]; dsimp only
    rw [a2]; dsimp only
    rw [a3]
  · obtain ⟨i, hi, rfl⟩ := List.mem_iff_getElem.1 ht
    have := t4 i hi
    rw [zero_add] at this
    exact made (hk1.draws i).1 (hk1.draws i).2 this
  · intro i hi
    have := t4 i hi
    rwa [zero_add] at this
  intro r2 hsC hsS hx hl0 hl1
  obtain ⟨⟨pk, hpk⟩, -⟩ := C11_keys_exist cfg' p q 2 (r2.relPrime N) sp sq hpq p2 q2 gp gq
    (by norm_num)
  have Gk := PublicPaillier.new_good hpk
  have hpk' := hpk
  rw [hN] at hpk'
  obtain ⟨T, hT, hinter, hcount⟩ := intersection_spec hsC hsS T0
    (fun t => t.1) (fun t => BN.natToBytes t.2.2.toNat) f S1 (fun _ => [])
    (fun a b ha hb => hinj a b (hmem a ha) (hmem b hb))
  -- the intersection, without repetitions
  have nd0 : (T0.map fun t => t.1).Nodup := t3 ▸ hnd
  have hTp : T.Perm (T0.filter fun t => decide (t.1 ∈ inputs)) := by
    have ndT0 : T0.Nodup := List.Nodup.of_map _ nd0
    have ndT : T.Nodup := by
      obtain ⟨l, hl1, hl2⟩ := hT
      exact hl1.nodup_iff.1 (ndT0.sublist hl2)
    refine (List.perm_ext_iff_of_nodup ndT (ndT0.filter _)).2 fun t => ?_
    rw [List.mem_filter, decide_eq_true_iff]
    have hc1 := hcount t.1
    rw [hS1.count_eq] at hc1
    constructor
    · intro ht
      have pos : 0 < T.countP (fun u => decide (u.1 = t.1)) :=
        List.countP_pos_iff.2 ⟨t, ht, by simp⟩
      exact ⟨hT.subset ht, List.count_pos_iff.1 (by omega)⟩
    · rintro ⟨ht, hin⟩
      have pos0 : 0 < T0.countP (fun u => decide (u.1 = t.1)) :=
        List.countP_pos_iff.2 ⟨t, ht, by simp⟩
      have pos1 := List.count_pos_iff.2 hin
      obtain ⟨t', ht', e1⟩ := List.countP_pos_iff.1
        (show 0 < T.countP (fun u => decide (u.1 = t.1)) by omega)
      have : t' = t := List.inj_on_of_nodup_map nd0 (hT.subset ht') ht (by simpa using e1)
      exact this ▸ ht'
  obtain ⟨z0, hz0, hz0m⟩ := PublicPaillier.encryptUsingGen_spec Gk 0 hl0 (by rw [hN]; exact hl1.le)
  rw [hN] at hz0 hz0m
  have hz : pk.encrypt 0 (r2.lessThan N) = .ok (z0 % N ^ 3) := by
    unfold PublicPaillier.encrypt
    rw [if_neg (by omega), Gk.hs, Gk.powers 2 (by omega), hN, if_neg (by
      have := pow_pos NposI 2; omega), hz0]
  have hmodulus : pk.modulus = N ^ 3 := by rw [Gk.hmod, hN]
  have N3 : 0 < N ^ 3 := pow_pos NposI 3
  refine ⟨z0, ?_, ?_⟩
  · simpa using hz0m
  have hdat : ∀ t ∈ T, BN.ofBytes (BN.natToBytes t.2.2.toNat) = t.2.2 := by
    intro t ht
    obtain ⟨i, hi, rfl⟩ := List.mem_iff_getElem.1 (hT.subset ht)
    have := t4 i hi
    rw [zero_add] at this
    have := made (hk1.draws i).1 (hk1.draws i).2 this
    rw [BN.ofBytes_natToBytes]; omega
  have eN : BN.ofBytes (BN.natToBytes N.toNat) = N := by rw [BN.ofBytes_natToBytes]; omega
  have hfold : T.foldl (fun acc t => pk.add acc (BN.ofBytes (BN.natToBytes t.2.2.toNat)))
      (z0 % N ^ 3) =
      z0 * ((T0.filter fun t => decide (t.1 ∈ inputs)).map fun t => t.2.2).prod % N ^ 3 := by
    rw [foldl_add (fun t : Bytes × Int × Int => BN.ofBytes (BN.natToBytes t.2.2.toNat)) T _
      (Int.emod_nonneg _ N3.ne') (by rw [hmodulus]; exact Int.emod_lt_of_pos _ N3), hmodulus,
      List.map_congr_left hdat, (hTp.map fun t => t.2.2).prod_eq]
    exact (emod_modEq z0 (N ^ 3)).mul_right _
  have hsz : T.length = commonSize els inputs := by
    rw [hTp.length_eq, commonSize, ← t3, List.filter_map, List.length_map]
    rfl
  have hcomp : Server.computeIntersection s1' r2 m2 =
      .ok ⟨commonSize els inputs, BN.natToBytes
        (z0 * ((T0.filter fun t => decide (t.1 ∈ inputs)).map fun t => t.2.2).prod %
          N ^ 3).toNat⟩ := by
    simp only [Server.computeIntersection, eN, s1', m2]
    rw [hpk']
    simp only [Res.ok_bind, s3, hz, eS1]
    rw [hinter, List.foldl_map, hfold, BN.toBytes_of_nonneg (Int.emod_nonneg _ N3.ne')]
    simp only [Res.ok_bind, Res.pure_eq, List.length_map, hsz]
  simp [reply, Server.handle, hcomp, s1']

/-! ### The symbol of the answer -/

theorem jac_prod {τ : Type} (n : Nat) (ct : τ → Int) : ∀ T : List τ,
    jacobiSym (T.map ct).prod n = (T.map fun t => jacobiSym (ct t) n).prod
  | [] => by simp [jacobiSym.one_left]
  | t :: T => by
    rw [List.map_cons, List.prod_cons, jacobiSym.mul_left, jac_prod n ct T, List.map_cons,
      List.prod_cons]

theorem symbol_eq {els inputs : List Bytes} {n : Nat} {m : ClientRoundOne} {e : Bytes → Bytes}
    {T0 : List (Bytes × Int × Int)} (h1 : T0.map (fun t => t.1) = els)
    (h2 : m.encryptedSet = T0.map fun t => ⟨e t.1, BN.natToBytes t.2.2.toNat⟩)
    (h0 : ∀ t ∈ T0, 0 ≤ t.2.2) :
    symbol els inputs n m =
      jacobiSym ((T0.filter fun t => decide (t.1 ∈ inputs)).map fun t => t.2.2).prod n := by
  rw [symbol, h2, ← h1, List.zip_map', List.filter_map, List.map_map, jac_prod]
  congr 1
  apply List.map_congr_left
  intro t ht
  have := h0 t (List.mem_filter.1 ht).1
  show jacobiSym (BN.ofBytes (BN.natToBytes t.2.2.toNat)) n = _
  rw [BN.ofBytes_natToBytes]
  congr 1
  omega

/-- What the server multiplies the ciphertexts with has symbol 1. -/
theorem jac_mask {p q : Nat} (hp : SafePrime p) (hq : SafePrime q) (p5 : p ≠ 5) (q5 : q ≠ 5)
    {x : Int} (hx : Int.gcd x ((p * q : Nat) : Int) = 1) (r s : Nat) {z : Int}
    (hz : z ≡ ((((p * q : Nat) : Int) - x * x % ((p * q : Nat) : Int)) ^ r) ^ (p * q) ^ s
      [ZMOD ((p * q : Nat) : Int) ^ (s + 1)]) : jacobiSym z (p * q) = 1 := by
  have h4 := mul_mod_four (safe_mod_four hp p5) (safe_mod_four hq q5)
  have hz' := modEq_of_dvd' hz (dvd_pow_self ((p * q : Nat) : Int) (Nat.succ_ne_zero s))
  rw [jac_congr hz' dvd_rfl, jacobiSym.pow_left, jacobiSym.pow_left,
    jac_congr (generator_modEq (p * q) x) dvd_rfl,
    jac_neg_sq (by omega) (Int.isCoprime_iff_gcd_eq_one.2 hx), if_pos h4]
  simp

/-- **C103**, what the answer carries.  In every run the encrypted sum that the server sends has, as
Jacobi symbol modulo the client's `n`, exactly the product of the symbols of the ciphertexts the
client sent for the identifiers of the intersection - whatever the server draws. -/
theorem C103_symbol_kept {E : EcGroup G} {els : List Bytes} {vals : List Int}
    {inputs : List Bytes} {p q : Nat} (h : Setup E els vals inputs p q) (hnd : els.Nodup)
    (p5 : p ≠ 5) (q5 : q ≠ 5) (cfg cfg' : ExpCfg) (w : Nat) (c : Client G)
    (hc : Client.init cfg (.ok E) els vals p q w = .ok c)
    (r1 : ServerRand) (k1 : ClientRand) (hk1 : k1.Ok) :
    ∃ s1 m, firstRound c (Server.init cfg' (.ok E) inputs) r1 k1 = some (s1, m) ∧
      ∀ r2 : ServerRand, r2.Ok → ∃ a, reply s1 r2 m = [.roundTwo a] ∧
        jacobiSym (BN.ofBytes a.encryptedSum) (p * q) = symbol els inputs (p * q) m := by
  obtain ⟨s1, m, sk, T0, hf, hsk, ht1, ht2, ht3, ht4, ⟨e, he⟩, hrep⟩ :=
    messages_spec h hnd cfg cfg' w c hc r1 k1 hk1
  refine ⟨s1, m, hf, fun r2 hr2 => ?_⟩
  have Npos : (0 : Int) < ((p * q : Nat) : Int) := by
    exact_mod_cast Nat.mul_pos h.safe_p.1.pos h.safe_q.1.pos
  have hl := hr2.lessThan _ Npos
  obtain ⟨z, hz, hr⟩ := hrep r2 hr2.sortClient hr2.sortServer (hr2.relPrime _ Npos) hl.1 hl.2
  refine ⟨_, hr, ?_⟩
  have N3 : (0 : Int) < ((p * q : Nat) : Int) ^ 3 := pow_pos Npos 3
  have nn := Int.emod_nonneg (z * ((T0.filter fun t => decide (t.1 ∈ inputs)).map
    fun t => t.2.2).prod) N3.ne'
  rw [symbol_eq ht2 he ht3, BN.ofBytes_natToBytes, Int.toNat_of_nonneg nn,
    jac_congr (modEq_of_dvd' (emod_modEq _ _) (dvd_pow_self ((p * q : Nat) : Int) (by norm_num)))
      dvd_rfl,
    jacobiSym.mul_left, jac_mask h.safe_p h.safe_q p5 q5 (hr2.relPrime _ Npos) _ 2 hz, one_mul]

/-- The symbol of an encryption by the private key is the parity of its two draws. -/
theorem jac_privateEncrypt {cfg : ExpCfg} {p q s : Nat} (hs : 1 ≤ s) {sk : PrivatePaillier}
    (hsk : PrivatePaillier.new cfg p q s = .ok sk) {v rp rq ct : Int} (hrp : 0 ≤ rp)
    (hrq : 0 ≤ rq) (h : sk.encrypt v rp rq = .ok ct) :
    jacobiSym ct (p * q) = (-1) ^ (rp.toNat + rq.toNat) := by
  have S := PrivatePaillier.new_good hs hsk
  obtain ⟨⟨-, gp⟩, -, gq⟩ := PrivatePaillier.generators hs hsk
  unfold PrivatePaillier.encrypt at h
  split at h
  · cases h
  rename_i hv
  split at h
  · cases h
  obtain ⟨M, rfl⟩ := Int.eq_ofNat_of_zero_le (not_lt.1 hv)
  obtain ⟨cp, cq, c, e1, e2, e3, -, -, e4, e5⟩ := PrivatePaillier.parts_spec S M hrp hrq
  rw [e1] at h
  simp only [Res.ok_bind, e2, e3, Res.ok.injEq] at h
  subst h
  have hodd : p * q % 2 = 1 := by rw [Nat.mul_mod, S.gp.odd, S.gq.odd]
  have := Fact.mk S.gp.prime
  have := Fact.mk S.gq.prime
  rw [jacobiSym.mul_right, jac_ct (by omega) (Dvd.intro _ rfl) hodd S.gp.gco.pow_left e4,
    jac_ct (by omega) (Dvd.intro_left _ rfl) hodd S.gq.gco.pow_left e5, jacobiSym.pow_left,
    jacobiSym.pow_left, jac_gP S.gp.prime S.gp.odd S.gp.gco gp,
    jac_gP S.gq.prime S.gq.odd S.gq.gco gq, pow_add]

/-- Setups for the counterexample: one value 5 for each of two identifiers. -/
theorem leakSetup (b : Bytes) (hb : b = [1] ∨ b = [2]) :
    Setup toyEc [[1], [2]] [5, 5] [b] 7 11 where
  lawful := toyEc_lawful
  hash_ok a ha := ⟨_, rfl, by rcases hb with rfl | rfl <;> revert a <;> decide⟩
  no_collision := by
    rcases hb with rfl | rfl <;> intro a ha b hb h <;> have h' := Res.ok.inj h <;>
      revert a b <;> decide
  one_value_each := rfl
  values := by decide
  safe_p := ⟨by norm_num, rfl, by norm_num⟩
  safe_q := ⟨by norm_num, rfl, by norm_num⟩
  gen_p := ⟨3, by norm_num, by norm_num, by norm_num⟩
  gen_q := ⟨2, by norm_num, by norm_num, by norm_num⟩
  two_lt_p := by norm_num
  two_lt_q := by norm_num
  ne := by norm_num

/-- Client draws for the counterexample. -/
def leakClientRand : ClientRand := ⟨fun i => if i = 0 then (1, 2) else (1, 1), insSort⟩

theorem leakClientRand_ok : leakClientRand.Ok where
  draws i := by unfold leakClientRand; dsimp only; split <;> norm_num
  sort := insSort_isSort

/-- **C103** is false.  A client with the identifiers 1 and 2, both with the value 5, runs the
protocol with a server that has only 1, and with a server that has only 2.  Size and sum are the
same (1 and 5), and yet the answers differ for all draws of both servers: their Jacobi symbols are
-1 and 1, so the client learns which identifier the server has. -/
theorem C103_answer_fails : ∃ (els : List Bytes) (vals : List Int) (inputs inputs' : List Bytes)
    (k1 : ClientRand), Setup toyEc els vals inputs 7 11 ∧ Setup toyEc els vals inputs' 7 11 ∧
    els.Nodup ∧ inputs.length = inputs'.length ∧ k1.Ok ∧
    commonSize els inputs = commonSize els inputs' ∧
    commonSum els vals inputs = commonSum els vals inputs' ∧
    ∀ (cfg cfg' : ExpCfg) (w : Nat) (c : Client _),
      Client.init cfg (.ok toyEc) els vals (7 : Nat) (11 : Nat) w = .ok c →
      ∀ r1 r1' : ServerRand, ∃ s1 m s1' m',
        firstRound c (Server.init cfg' (.ok toyEc) inputs) r1 k1 = some (s1, m) ∧
        firstRound c (Server.init cfg' (.ok toyEc) inputs') r1' k1 = some (s1', m') ∧
        ∀ r2 r2' : ServerRand, r2.Ok → r2'.Ok → ∃ a a', reply s1 r2 m = [.roundTwo a] ∧
          reply s1' r2' m' = [.roundTwo a'] ∧ jacobiSym (BN.ofBytes a.encryptedSum) 77 = -1 ∧
          jacobiSym (BN.ofBytes a'.encryptedSum) 77 = 1 := by
  refine ⟨[[1], [2]], [5, 5], [[1]], [[2]], leakClientRand, leakSetup _ (.inl rfl),
    leakSetup _ (.inr rfl), by decide, rfl, leakClientRand_ok, by decide, by decide, ?_⟩
  intro cfg cfg' w c hc r1 r1'
  have key : ∀ (b : Bytes) (hb : b = [1] ∨ b = [2]) (r1 : ServerRand), ∃ s1 m,
      firstRound c (Server.init cfg' (.ok toyEc) [b]) r1 leakClientRand = some (s1, m) ∧
      ∀ r2 : ServerRand, r2.Ok → ∃ a, reply s1 r2 m = [.roundTwo a] ∧
        jacobiSym (BN.ofBytes a.encryptedSum) 77 = if b = [1] then -1 else 1 := by
    intro b hb r1
    obtain ⟨s1, m, sk, T0, hf, hsk, ht1, ht2, ht3, ht4, ⟨e, he⟩, -⟩ :=
      messages_spec (leakSetup b hb) (by decide) cfg cfg' w c hc r1 leakClientRand
        leakClientRand_ok
    obtain ⟨s1', m', hf', hall⟩ := C103_symbol_kept (leakSetup b hb) (by decide) (by norm_num)
      (by norm_num) cfg cfg' w c hc r1 leakClientRand leakClientRand_ok
    rw [hf] at hf'
    obtain ⟨rfl, rfl⟩ : s1 = s1' ∧ m = m' := by simpa using hf'
    refine ⟨s1, m, hf, fun r2 hr2 => ?_⟩
    obtain ⟨a, ha, hj⟩ := hall r2 hr2
    refine ⟨a, ha, ?_⟩
    rw [symbol_eq ht2 he ht3] at hj
    rw [show (77 : Nat) = 7 * 11 by norm_num, hj]
    match T0, ht2, ht4 with
    | [(a0, v0, c0), (a1, v1, c1)], ht2, ht4 =>
      have j0 := jac_privateEncrypt (by norm_num) hsk (by norm_num [leakClientRand])
        (by norm_num [leakClientRand]) (ht4 0 (by simp))
      have j1 := jac_privateEncrypt (by norm_num) hsk (by norm_num [leakClientRand])
        (by norm_num [leakClientRand]) (ht4 1 (by simp))
      simp only [List.map_cons, List.map_nil, List.cons.injEq, and_true] at ht2
      obtain ⟨rfl, rfl⟩ := ht2
      rcases hb with rfl | rfl
      · have : (decide ((([1] : Bytes)) ∈ ([[1]] : List Bytes))) = true := by decide
        have h2 : (decide ((([2] : Bytes)) ∈ ([[1]] : List Bytes))) = false := by decide
        simp only [List.filter_cons, this, h2, List.filter_nil, if_true, List.map_cons,
          List.map_nil, List.prod_cons, List.prod_nil, mul_one, Bool.false_eq_true, if_false]
        simpa [leakClientRand] using j0
      · have : (decide ((([1] : Bytes)) ∈ ([[2]] : List Bytes))) = false := by decide
        have h2 : (decide ((([2] : Bytes)) ∈ ([[2]] : List Bytes))) = true := by decide
        simp only [List.filter_cons, this, h2, List.filter_nil, if_true, List.map_cons,
          List.map_nil, List.prod_cons, List.prod_nil, mul_one, Bool.false_eq_true, if_false]
        rw [if_neg (by decide)]
        simpa [leakClientRand] using j1
    | [], ht2, _ => simp at ht2
    | [_], ht2, _ => simp at ht2
    | _ :: _ :: _ :: _, ht2, _ => simp at ht2
  obtain ⟨s1, m, h1, h2⟩ := key [1] (.inl rfl) r1
  obtain ⟨s1', m', h1', h2'⟩ := key [2] (.inr rfl) r1'
  refine ⟨s1, m, s1', m', h1, h1', fun r2 r2' hr2 hr2' => ?_⟩
  obtain ⟨a, ha, hj⟩ := h2 r2 hr2
  obtain ⟨a', ha', hj'⟩ := h2' r2' hr2'
  exact ⟨a, a', ha, ha', by rw [hj, if_pos rfl], by rw [hj', if_neg (by decide)]⟩

/-! ### Nothing else is revealed -/

theorem ct_prod {p n s : Nat} {τ : Type} (val ct : τ → Int) : ∀ T : List τ,
    (∀ t ∈ T, CtI p n s (val t) (ct t)) → CtI p n s (T.map val).sum (T.map ct).prod
  | [], _ => ⟨0, by simp, 1, isCoprime_one_left, by simp⟩
  | t :: T, h => by
    rw [List.map_cons, List.sum_cons, List.map_cons, List.prod_cons]
    exact (h t (by simp)).mul (ct_prod val ct T fun u hu => h u (by simp [hu]))

theorem CtI.congr_msg {p n s : Nat} {m m' c : Int} (h : CtI p n s m c)
    (hm : m ≡ m' [ZMOD (p : Int) ^ s]) : CtI p n s m' c := by
  obtain ⟨M, e, d⟩ := h
  exact ⟨M, e.trans hm, d⟩

/-- The mask is periodic in its exponent. -/
theorem mask_period {p q s : Nat} (hp : SafePrime p) (hq : SafePrime q) (hpq : p ≠ q) {g : Int}
    (gcp : IsCoprime g (p : Int)) (gcq : IsCoprime g (q : Int)) {a b : Nat}
    (hab : a ≡ b [MOD 2 * (p / 2) * (q / 2)]) :
    (g ^ a) ^ (p * q) ^ s ≡ (g ^ b) ^ (p * q) ^ s [ZMOD ((p * q : Nat) : Int) ^ (s + 1)] := by
  have e1 : p - 1 = 2 * (p / 2) := by have := hp.2.1; omega
  have e2 : q - 1 = 2 * (q / 2) := by have := hq.2.1; omega
  have period : ∀ {P : Nat}, P.Prime → IsCoprime g (P : Int) → ∀ {a b : Nat}, a ≡ b [MOD P - 1] →
      g ^ a ≡ g ^ b [ZMOD (P : Int)] := by
    intro P hP hgP
    have base : ∀ a : Nat, g ^ a ≡ g ^ (a % (P - 1)) [ZMOD (P : Int)] := by
      intro a
      have hf := Int.ModEq.pow_card_sub_one_eq_one hP hgP
      calc g ^ a = g ^ (a % (P - 1) + (P - 1) * (a / (P - 1))) := by rw [Nat.mod_add_div]
        _ = g ^ (a % (P - 1)) * (g ^ (P - 1)) ^ (a / (P - 1)) := by rw [pow_add, pow_mul]
        _ ≡ g ^ (a % (P - 1)) * 1 ^ (a / (P - 1)) [ZMOD (P : Int)] := (hf.pow _).mul_left _
        _ = g ^ (a % (P - 1)) := by rw [one_pow, mul_one]
    intro a b hab
    exact (base a).trans ((meq_of_eq (by rw [hab])).trans (base b).symm)
  have h1 := pow_lift p q s _ _ (period hp.1 gcp (a := a) (b := b)
    (hab.of_dvd (by rw [e1]; exact Dvd.intro _ rfl)))
  have h2 := pow_lift q p s _ _ (period hq.1 gcq (a := a) (b := b)
    (hab.of_dvd (by rw [e2]; exact ⟨p / 2, by ring⟩)))
  rw [mul_comm q p] at h2
  have hc : IsCoprime ((p : Int) ^ (s + 1)) ((q : Int) ^ (s + 1)) :=
    (Nat.isCoprime_iff_coprime.2 ((Nat.coprime_primes hp.1 hq.1).2 hpq)).pow
  have e1 : ((p * q : Nat) : Int) ^ (s + 1) = (p : Int) ^ (s + 1) * (q : Int) ^ (s + 1) := by
    push_cast; exact mul_pow _ _ _
  rw [e1]
  exact Int.modEq_iff_dvd.2 (hc.mul_dvd h1.dvd h2.dvd)

/-- Rotating by `k` inside the blocks of length `L`, two whole blocks of which are below `n`. -/
def rotate (L k r : Nat) : Nat := if r < 2 * L then r / L * L + (r % L + k) % L else r

theorem rotate_lt {L k r n : Nat} (hr : r < n) (hL : 2 * L ≤ n) : rotate L k r < n := by
  unfold rotate
  split
  · rename_i h
    have hpos : 0 < L := by omega
    have h1 : r / L < 2 := Nat.div_lt_of_lt_mul (by omega)
    have h2 := Nat.mod_lt (r % L + k) hpos
    have h3 : r / L * L ≤ 1 * L := Nat.mul_le_mul_right _ (by omega)
    omega
  · exact hr

theorem rotate_modEq {L k r : Nat} (h : r < 2 * L) : rotate L k r ≡ r + k [MOD L] := by
  unfold rotate
  rw [if_pos h]
  calc r / L * L + (r % L + k) % L ≡ 0 + (r % L + k) [MOD L] :=
        ((Nat.modEq_zero_iff_dvd.2 (Dvd.intro_left _ rfl))).add (Nat.mod_modEq _ _)
    _ = r % L + k := by rw [zero_add]
    _ ≡ r + k [MOD L] := (Nat.mod_modEq _ _).add_right _

theorem rotate_inj {L k a b : Nat} (h : rotate L k a = rotate L k b) : a = b := by
  have blk : ∀ r, r < 2 * L → rotate L k r < 2 * L ∧ rotate L k r / L = r / L := by
    intro r hr
    refine ⟨rotate_lt hr (le_refl _), ?_⟩
    have hpos : 0 < L := by omega
    unfold rotate
    rw [if_pos hr, Nat.add_comm, Nat.add_mul_div_right _ _ hpos,
      Nat.div_eq_of_lt (Nat.mod_lt _ hpos), zero_add]
  by_cases ha : a < 2 * L <;> by_cases hb : b < 2 * L
  · have h1 := (blk a ha).2
    have h2 := (blk b hb).2
    have h3 : a + k ≡ b + k [MOD L] := by
      refine (rotate_modEq ha).symm.trans ?_
      rw [h]
      exact rotate_modEq hb
    have h4 : a % L = b % L := Nat.ModEq.add_right_cancel' k h3
    rw [h] at h1
    have h5 : a / L = b / L := h1.symm.trans h2
    rw [← Nat.div_add_mod a L, ← Nat.div_add_mod b L, h4, h5]
  · have h1 := (blk a ha).1
    rw [h, rotate, if_neg hb] at h1
    exact absurd h1 hb
  · have h1 := (blk b hb).1
    rw [← h, rotate, if_neg ha] at h1
    exact absurd h1 ha
  · rwa [rotate, rotate, if_neg ha, if_neg hb] at h

theorem card_residue (p q c : Nat) :
    ((Finset.range (p * q)).filter fun x => x % p = c).card ≤ q := by
  have : ((Finset.range (p * q)).filter fun x => x % p = c).card ≤ (Finset.range q).card := by
    apply Finset.card_le_card_of_injOn (fun x => x / p)
    · intro x hx
      simp only [Finset.coe_filter, Finset.mem_range, Set.mem_ofPred_eq] at hx
      simp only [Finset.coe_range, Set.mem_Iio]
      exact Nat.div_lt_of_lt_mul hx.1
    · intro x hx y hy h
      simp only [Finset.coe_filter, Finset.mem_range, Set.mem_ofPred_eq] at hx hy
      rw [← Nat.div_add_mod x p, ← Nat.div_add_mod y p, hx.2, hy.2]
      have : x / p = y / p := h
      rw [this]
  simpa using this

/-- What the server multiplies the ciphertexts with, for the draws `d`. -/
def maskOf (n : Nat) (d : Nat × Nat) : Int :=
  (((n : Int) - (d.1 : Int) * d.1 % (n : Int)) ^ d.2) ^ n ^ 2

/-- Two ciphertexts of the same message with the same symbol cannot be told apart after masking. -/
theorem masked_close {p q : Nat} (sp : SafePrime p) (sq : SafePrime q) (p5 : p ≠ 5) (q5 : q ≠ 5)
    (p3 : 3 < p) (q3 : 3 < q) (hpq : p ≠ q) {m C C' : Int} (c1 : CtI p (p * q) 2 m C)
    (c2 : CtI q (p * q) 2 m C) (c1' : CtI p (p * q) 2 m C') (c2' : CtI q (p * q) 2 m C')
    (hj : jacobiSym C (p * q) = jacobiSym C' (p * q)) :
    StatClose (PaillierDraws (p * q)) (fun d => maskOf (p * q) d * C % ((p * q : Nat) : Int) ^ 3)
      (fun d => maskOf (p * q) d * C' % ((p * q : Nat) : Int) ^ 3) (3 * (p + q))
      ((p - 1) * (q - 1)) := by
  classical
  let n := p * q
  let L := 2 * (p / 2) * (q / 2)
  -- good values of the first draw
  let GoodX : Nat → Prop := fun x => ¬ (x % p = 1 ∨ x % p = p - 1 ∨ x % q = 1 ∨ x % q = q - 1)
  let g : Nat → Int := fun x => ((p * q : Nat) : Int) - (x : Int) * x % ((p * q : Nat) : Int)
  have hex : ∀ x : Nat, n.Coprime x → GoodX x →
      ∃ k : Nat, C ≡ C' * ((g x) ^ k) ^ (p * q) ^ 2 [ZMOD ((p * q : Nat) : Int) ^ 3] := by
    intro x hx hgood
    simp only [GoodX, not_or] at hgood
    refine mask_between sp sq p5 q5 p3 q3 hpq (x := (x : Int)) (g := g x)
      (m := m) (s := 2)
      (by rw [Int.gcd_natCast_natCast]; exact hx.symm) ?_ ?_ ?_ ?_ (generator_modEq (p * q) x)
      c1' c2' c1 c2 hj.symm
    · intro e; exact hgood.1 (by exact_mod_cast e)
    · intro e; exact hgood.2.1 (by have : ((x % p : Nat) : Int) = p - 1 := by exact_mod_cast e
                                   omega)
    · intro e; exact hgood.2.2.1 (by exact_mod_cast e)
    · intro e; exact hgood.2.2.2 (by have : ((x % q : Nat) : Int) = q - 1 := by exact_mod_cast e
                                     omega)
  choose! K hK using hex
  have hL : n = 2 * L + (p + q - 1) := by
    have e1 : p = 2 * (p / 2) + 1 := by have := sp.2.1; omega
    have e2 : q = 2 * (q / 2) + 1 := by have := sq.2.1; omega
    show p * q = 2 * (2 * (p / 2) * (q / 2)) + (p + q - 1)
    generalize p / 2 = a at *
    generalize q / 2 = b at *
    subst e1 e2
    have : 2 * a + 1 + (2 * b + 1) - 1 = 2 * a + 2 * b + 1 := by omega
    rw [this]; ring
  let BX := (Finset.range n).filter fun x => n.Coprime x ∧ ¬ GoodX x
  let Bad := BX ×ˢ Finset.range n ∪
    ((Finset.range n).filter fun x => n.Coprime x) ×ˢ Finset.Ico (2 * L) n
  have hX : ((Finset.range n).filter fun x => n.Coprime x).card = (p - 1) * (q - 1) := by
    have : ((Finset.range n).filter fun x => n.Coprime x).card = Nat.totient n := rfl
    rw [this, Nat.totient_mul ((Nat.coprime_primes sp.1 sq.1).2 hpq), Nat.totient_prime sp.1,
      Nat.totient_prime sq.1]
  have hBX : BX.card ≤ 2 * (p + q) := by
    have hsub : BX ⊆ (((Finset.range n).filter fun x => x % p = 1) ∪
        ((Finset.range n).filter fun x => x % p = p - 1)) ∪
        (((Finset.range n).filter fun x => x % q = 1) ∪
        ((Finset.range n).filter fun x => x % q = q - 1)) := by
      intro x hx
      simp only [BX, GoodX, not_not, Finset.mem_filter, Finset.mem_union] at hx ⊢
      tauto
    refine (Finset.card_le_card hsub).trans ((Finset.card_union_le _ _).trans ?_)
    have a1 : ((Finset.range n).filter fun x => x % p = 1).card ≤ q := card_residue p q 1
    have a2 : ((Finset.range n).filter fun x => x % p = p - 1).card ≤ q := card_residue p q (p - 1)
    have a3 : ((Finset.range n).filter fun x => x % q = 1).card ≤ p := by
      have := card_residue q p 1; rwa [mul_comm q p] at this
    have a4 : ((Finset.range n).filter fun x => x % q = q - 1).card ≤ p := by
      have := card_residue q p (q - 1); rwa [mul_comm q p] at this
    have b1 := Finset.card_union_le ((Finset.range n).filter fun x => x % p = 1)
      ((Finset.range n).filter fun x => x % p = p - 1)
    have b2 := Finset.card_union_le ((Finset.range n).filter fun x => x % q = 1)
      ((Finset.range n).filter fun x => x % q = q - 1)
    omega
  refine close_of_inj (PaillierDraws (p * q)) Bad _ _
    (fun d => (d.1, if GoodX d.1 then rotate L (K d.1) d.2 else d.2)) _ _ ?_ ?_ ?_ ?_ ?_
  · intro d hd
    simp only [Bad, BX, Finset.mem_union, Finset.mem_product, Finset.mem_filter, Finset.mem_range,
      Finset.mem_Ico, PaillierDraws] at hd ⊢
    rcases hd with hd | hd
    · exact ⟨⟨hd.1.1, hd.1.2.1⟩, hd.2⟩
    · exact ⟨hd.1, hd.2.2⟩
  · have hD : (PaillierDraws (p * q)).card = (p - 1) * (q - 1) * n := by
      rw [PaillierDraws, Finset.card_product, hX, Finset.card_range]
    have hB : Bad.card ≤ 2 * (p + q) * n + (p - 1) * (q - 1) * (p + q) := by
      refine (Finset.card_union_le _ _).trans (Nat.add_le_add ?_ ?_)
      · rw [Finset.card_product, Finset.card_range]
        exact Nat.mul_le_mul_right _ hBX
      · rw [Finset.card_product, hX, Nat.card_Ico]
        exact Nat.mul_le_mul_left _ (by omega)
    rw [hD]
    have hle : (p - 1) * (q - 1) ≤ n := Nat.mul_le_mul (by omega) (by omega)
    calc Bad.card * ((p - 1) * (q - 1))
        ≤ (2 * (p + q) * n + (p - 1) * (q - 1) * (p + q)) * ((p - 1) * (q - 1)) :=
          Nat.mul_le_mul_right _ hB
      _ ≤ (2 * (p + q) * n + n * (p + q)) * ((p - 1) * (q - 1)) :=
          Nat.mul_le_mul_right _ (Nat.add_le_add_left (Nat.mul_le_mul_right _ hle) _)
      _ = 3 * (p + q) * ((p - 1) * (q - 1) * n) := by ring
  · intro d hd _
    simp only [PaillierDraws, Finset.mem_product, Finset.mem_filter, Finset.mem_range] at hd ⊢
    refine ⟨hd.1, ?_⟩
    split
    · exact rotate_lt hd.2 (by show 2 * L ≤ n; omega)
    · exact hd.2
  · rintro ⟨x, r⟩ _ ⟨x', r'⟩ _ he
    simp only [Prod.mk.injEq] at he ⊢
    obtain ⟨rfl, he⟩ := he
    refine ⟨rfl, ?_⟩
    split at he
    · exact rotate_inj he
    · exact he
  · rintro ⟨x, r⟩ hd hb
    have hd0 := hd
    simp only [PaillierDraws, Finset.mem_product, Finset.mem_filter, Finset.mem_range] at hd
    have hgood : GoodX x := by
      by_contra hcon
      apply hb
      simp only [Bad, BX, Finset.mem_union, Finset.mem_product, Finset.mem_filter, Finset.mem_range]
      exact Or.inl ⟨⟨hd.1.1, hd.1.2, fun hg => hg hcon⟩, hd.2⟩
    have hr : r < 2 * L := by
      by_contra hcon
      apply hb
      simp only [Bad, BX, Finset.mem_union, Finset.mem_product, Finset.mem_filter, Finset.mem_range,
        Finset.mem_Ico]
      exact Or.inr ⟨hd.1, by omega, hd.2⟩
    simp only [if_pos hgood]
    have hrot : rotate L (K x) r < n := rotate_lt hd.2 (by omega)
    have hd' : (x, rotate L (K x) r) ∈ PaillierDraws (p * q) := by
      simp only [PaillierDraws, Finset.mem_product, Finset.mem_filter, Finset.mem_range]
      exact ⟨hd.1, hrot⟩
    have gco : IsCoprime (g x) ((p * q : Nat) : Int) := generator_coprime (by
      rw [Int.gcd_natCast_natCast]; exact hd.1.2.symm)
    push_cast at gco
    have hper := mask_period (s := 2) sp sq hpq gco.of_mul_right_left gco.of_mul_right_right
      (rotate_modEq (k := K x) hr)
    have heq : (g x ^ r) ^ (p * q) ^ 2 * C ≡ (g x ^ rotate L (K x) r) ^ (p * q) ^ 2 * C'
        [ZMOD ((p * q : Nat) : Int) ^ 3] := by
      refine ((hK x hd.1.2 hgood).mul_left _).trans ?_
      refine Int.ModEq.trans (meq_of_eq ?_) (hper.symm.mul_right C')
      rw [pow_add, mul_pow]
      ring
    exact heq

/-- What holds of **C103**: between two servers whose lists give the same size, the same sum and the
same symbol, no question about the answer tells them apart with an advantage above
`3(p+q) / ((p-1)(q-1))`.  Missing: equal size and sum are not enough (`C103_answer_fails`). -/
theorem C103_answer_partial {E : EcGroup G} {els : List Bytes} {vals : List Int}
    {inputs inputs' : List Bytes} {p q : Nat} (h : Setup E els vals inputs p q)
    (h' : Setup E els vals inputs' p q) (hnd : els.Nodup) (p5 : p ≠ 5) (q5 : q ≠ 5)
    (cfg cfg' : ExpCfg) (w : Nat) (c : Client G)
    (hc : Client.init cfg (.ok E) els vals p q w = .ok c)
    (r1 r1' r2 r2' : ServerRand) (hr2 : r2.Ok) (hr2' : r2'.Ok) (k1 : ClientRand) (hk1 : k1.Ok)
    (s1 s1' : Server G) (m m' : ClientRoundOne)
    (hf : firstRound c (Server.init cfg' (.ok E) inputs) r1 k1 = some (s1, m))
    (hf' : firstRound c (Server.init cfg' (.ok E) inputs') r1' k1 = some (s1', m'))
    (hsize : commonSize els inputs = commonSize els inputs')
    (hsum : commonSum els vals inputs ≡ commonSum els vals inputs' [ZMOD ((p * q : Nat) : Int) ^ 2])
    (hsym : symbol els inputs (p * q) m = symbol els inputs' (p * q) m') :
    StatClose (PaillierDraws (p * q)) (fun d => reply s1 (r2.withDraws d) m)
      (fun d => reply s1' (r2'.withDraws d) m') (3 * (p + q)) ((p - 1) * (q - 1)) := by
  classical
  have sp := h.safe_p
  have sq := h.safe_q
  have p3 : 3 < p := by have := h.two_lt_p; have := sp.2.1; have := sp.2.2.two_le; omega
  have q3 : 3 < q := by have := h.two_lt_q; have := sq.2.1; have := sq.2.2.two_le; omega
  have hpq := h.ne
  -- one run in closed form
  have side : ∀ {ins : List Bytes} (h : Setup E els vals ins p q) (r1 r2 : ServerRand)
      (hr2 : r2.Ok) (s1 : Server G) (m : ClientRoundOne),
      firstRound c (Server.init cfg' (.ok E) ins) r1 k1 = some (s1, m) →
      ∃ C : Int, CtI p (p * q) 2 (commonSum els vals ins) C ∧
        CtI q (p * q) 2 (commonSum els vals ins) C ∧
        jacobiSym C (p * q) = symbol els ins (p * q) m ∧
        ∀ d ∈ PaillierDraws (p * q), reply s1 (r2.withDraws d) m =
          [.roundTwo ⟨commonSize els ins, BN.natToBytes
            (maskOf (p * q) d * C % ((p * q : Nat) : Int) ^ 3).toNat⟩] := by
    intro ins h r1 r2 hr2 s1 m hf
    obtain ⟨s0, m0, sk, T0, hf0, hsk, ht1, ht2, ht3, ht4, ⟨e, he⟩, hrep⟩ :=
      messages_spec h hnd cfg cfg' w c hc r1 k1 hk1
    rw [hf] at hf0
    obtain ⟨rfl, rfl⟩ : s1 = s0 ∧ m = m0 := by simpa using hf0
    have S := PrivatePaillier.new_good (by norm_num) hsk
    obtain ⟨⟨pk0, hpk0⟩, -⟩ := C11_keys_exist cfg p q 2 1 sp sq hpq h.two_lt_p h.two_lt_q h.gen_p
      h.gen_q (by norm_num)
    have hct : ∀ t ∈ T0, CtN p q 2 t.2.1 t.2.2 := by
      intro t ht
      obtain ⟨i, hi, rfl⟩ := List.mem_iff_getElem.1 ht
      exact made_ct (by simp) (PublicPaillier.new_good hpk0) S
        (.privateEncrypt (hk1.draws i).1 (hk1.draws i).2 (ht4 i hi))
    have esum : ((T0.filter fun t => decide (t.1 ∈ ins)).map fun t => t.2.1).sum =
        commonSum els vals ins := by
      rw [commonSum, ← ht1, List.filter_map, List.map_map]
      rfl
    refine ⟨((T0.filter fun t => decide (t.1 ∈ ins)).map fun t => t.2.2).prod, ?_, ?_, ?_, ?_⟩
    · rw [← esum]
      exact ct_prod _ _ _ fun t ht => (hct t (List.mem_filter.1 ht).1).modP
    · rw [← esum]
      exact ct_prod _ _ _ fun t ht => (hct t (List.mem_filter.1 ht).1).modQ
    · rw [symbol_eq ht2 he ht3]
    · intro d hd
      simp only [PaillierDraws, Finset.mem_product, Finset.mem_filter, Finset.mem_range] at hd
      obtain ⟨z, hz, hr⟩ := hrep (r2.withDraws d) hr2.sortClient hr2.sortServer
        (by
          show Int.gcd (d.1 : Int) ((p * q : Nat) : Int) = 1
          rw [Int.gcd_natCast_natCast]; exact hd.1.2.symm)
        (by show (0 : Int) ≤ (d.2 : Int); omega)
        (by show (d.2 : Int) < ((p * q : Nat) : Int); exact_mod_cast hd.2)
      rw [hr]
      have e2 : ((r2.withDraws d).lessThan ((p * q : Nat) : Int)).toNat = d.2 := Int.toNat_natCast _
      rw [e2] at hz
      have := hz.mul_right ((T0.filter fun t => decide (t.1 ∈ ins)).map fun t => t.2.2).prod
      rw [Int.ModEq] at this
      rw [this]
      rfl
  obtain ⟨C, c1, c2, c3, c4⟩ := side h r1 r2 hr2 s1 m hf
  obtain ⟨C', c1', c2', c3', c4'⟩ := side h' r1' r2' hr2' s1' m' hf'
  have mp := modEq_prime_parts hsum
  have c1'' := CtI.congr_msg c1' mp.1.symm
  have c2'' := CtI.congr_msg c2' mp.2.symm
  have hj : jacobiSym C (p * q) = jacobiSym C' (p * q) := by rw [c3, c3', hsym]
  exact (masked_close sp sq p5 q5 p3 q3 hpq c1 c2 c1'' c2'' hj).map
    (fun y => [.roundTwo ⟨commonSize els inputs, BN.natToBytes y.toNat⟩]) c4
    (fun d hd => by rw [c4' d hd, hsize])

/-- `C103_answer_partial` applies to the two servers of the counterexample when the draws of the
client have even sums: both symbols are then 1. -/
example (cfg cfg' : ExpCfg) (w : Nat) (r1 r1' : ServerRand) :
    ∃ c s1 m s1' m', Client.init cfg (.ok toyEc) [[1], [2]] [5, 5] (7 : Nat) (11 : Nat) w = .ok c ∧
      firstRound c (Server.init cfg' (.ok toyEc) [[1]]) r1 ⟨fun _ => (3, 1), insSort⟩ = some (s1, m) ∧
      firstRound c (Server.init cfg' (.ok toyEc) [[2]]) r1' ⟨fun _ => (3, 1), insSort⟩ =
        some (s1', m') ∧
      StatClose (PaillierDraws 77) (fun d => reply s1 (toyServerRand.withDraws d) m)
        (fun d => reply s1' (toyServerRand.withDraws d) m') 54 60 := by
  obtain ⟨c, hc⟩ : ∃ c, Client.init cfg (.ok toyEc) [[1], [2]] [5, 5] (7 : Nat) (11 : Nat) w =
      .ok c := by
    obtain ⟨K, -, hc⟩ := Client.init_ok toyEc_lawful cfg [[1], [2]] [5, 5] (7 : Nat) (11 : Nat) w
    exact ⟨_, hc⟩
  have hk : (⟨fun _ => (3, 1), insSort⟩ : ClientRand).Ok :=
    ⟨fun _ => ⟨by norm_num, by norm_num⟩, insSort_isSort⟩
  have key : ∀ (b : Bytes) (hb : b = [1] ∨ b = [2]) (r1 : ServerRand), ∃ s1 m,
      firstRound c (Server.init cfg' (.ok toyEc) [b]) r1 ⟨fun _ => (3, 1), insSort⟩ =
        some (s1, m) ∧ symbol [[1], [2]] [b] (7 * 11) m = 1 := by
    intro b hb r1
    obtain ⟨s1, m, sk, T0, hf, hsk, -, ht2, ht3, ht4, ⟨e, he⟩, -⟩ :=
      messages_spec (leakSetup b hb) (by decide) cfg cfg' w _ hc r1 _ hk
    refine ⟨s1, m, hf, ?_⟩
    rw [symbol_eq ht2 he ht3, jac_prod]
    apply List.prod_eq_one
    intro y hy
    obtain ⟨t, ht, rfl⟩ := List.mem_map.1 hy
    obtain ⟨i, hi, rfl⟩ := List.mem_iff_getElem.1 (List.mem_filter.1 ht).1
    rw [jac_privateEncrypt (by norm_num) hsk (by norm_num) (by norm_num) (ht4 i hi)]
    show (-1 : Int) ^ ((3 : Int).toNat + (1 : Int).toNat) = 1
    decide
  obtain ⟨s1, m, h1, h2⟩ := key [1] (.inl rfl) r1
  obtain ⟨s1', m', h1', h2'⟩ := key [2] (.inr rfl) r1'
  exact ⟨_, s1, m, s1', m', hc, h1, h1', C103_answer_partial (leakSetup [1] (.inl rfl))
    (leakSetup [2] (.inr rfl)) (by decide) (by norm_num) (by norm_num) cfg cfg' w _ hc r1 r1'
    toyServerRand toyServerRand toyServerRand_ok toyServerRand_ok _ hk s1 s1' m m' h1 h1'
    (by decide) (by decide) (h2.trans h2'.symm)⟩

end PJC.Protocol
