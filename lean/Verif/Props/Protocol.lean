import Mathlib.Algebra.Order.BigOperators.Group.Finset
import Mathlib.Algebra.BigOperators.Ring.Multiset
import Verif.Lemmas.Protocol
/-
C01 - C03: what an honest run of the private intersection-sum protocol computes.

All theorems are about the message handlers of both parties (`Model/Protocol.lean`), over
any curve that satisfies `EcGroup.Lawful`, for all input lists, keys and random draws.
-/
set_option linter.unusedSectionVars false
namespace PJC.Protocol
open PJC.Props

variable {G : Type} [AddCommGroup G] [DecidableEq G]

/-! ### Specification -/

/-- What the random generators and `std::sort` guarantee to the server: a draw coprime to
the bound, a draw below the bound, and sorted permutations. -/
structure ServerRand.Ok (r : ServerRand) : Prop where
  relPrime : ∀ n, 0 < n → Int.gcd (r.relPrime n) n = 1
  lessThan : ∀ n, 0 < n → 0 ≤ r.lessThan n ∧ r.lessThan n < n
  sortClient : IsSort r.sortClient
  sortServer : IsSort r.sortServer

/-- The same for the client. -/
structure ClientRand.Ok (r : ClientRand) : Prop where
  draws : ∀ i, 0 ≤ (r.draws i).1 ∧ 0 ≤ (r.draws i).2
  sort : IsSort r.sort

/-- A sink that takes every message. -/
def accept {μ : Type} : μ → Res Unit := fun _ => .ok ()

/-- The whole protocol between two objects over a reliable channel: StartProtocol, then
each party handles the other's reply.  `none` unless every call returned OK and produced
exactly the one message expected (the last one: none). -/
def honestRun (c : Client G) (s : Server G) (r1 r2 : ServerRand) (k1 k2 : ClientRand) :
    Option (Client G × Server G) :=
  match c.startProtocol accept with
  | ⟨c0, [m0], .ok ()⟩ =>
    match s.handle r1 accept m0 with
    | ⟨s1, [m1], .ok ()⟩ =>
      match c0.handle k1 accept m1 with
      | ⟨c1, [m2], .ok ()⟩ =>
        match s1.handle r2 accept m2 with
        | ⟨s2, [m3], .ok ()⟩ =>
          match c1.handle k2 accept m3 with
          | ⟨c2, [], .ok ()⟩ => some (c2, s2)
          | _ => none
        | _ => none
      | _ => none
    | _ => none
  | _ => none

/-- The inputs of a run: both lists, the client's values and its two primes.
`hash_ok` is `C27_hash_valid` for the curves of this project; `no_collision` says that the
identifiers of this run do not collide under the hash; `HasSmallGenerator` that the search
for a generator below 1002 succeeds. -/
structure Setup (E : EcGroup G) (els : List Bytes) (vals : List Int) (inputs : List Bytes)
    (p q : Nat) : Prop where
  lawful : E.Lawful
  hash_ok : ∀ a ∈ els ++ inputs, ∃ P, E.hashSha256 a = .ok P ∧ P ≠ 0
  no_collision : ∀ a ∈ els ++ inputs, ∀ b ∈ els ++ inputs,
    E.hashSha256 a = E.hashSha256 b → a = b
  one_value_each : vals.length = els.length
  values : ∀ v ∈ vals, 0 ≤ v ∧ v < ((p * q : Nat) : Int) ^ 2
  safe_p : SafePrime p
  safe_q : SafePrime q
  gen_p : HasSmallGenerator p
  gen_q : HasSmallGenerator q
  two_lt_p : 2 < p
  two_lt_q : 2 < q
  ne : p ≠ q

theorem createWithNewKey_ok {E : EcGroup G} (hE : E.Lawful) (w : Nat) :
    ∃ K, EcCipher.createWithNewKey (.ok E) .sha256 w = .ok K ∧ CipherOf E .sha256 K := by
  obtain ⟨k, hk, h1, h2⟩ := hE.generatePrivateKey_spec w
  obtain ⟨c, hc, -, -⟩ := EcCipher.make_good (k := k) (t := .sha256) hE h1 h2
  have : EcCipher.createWithNewKey (.ok E) .sha256 w = .ok c := by
    simp only [EcCipher.createWithNewKey, Res.ok_bind, hk, EcCipher.validateHashType, hc]
    rfl
  exact ⟨c, this, .newKey w this⟩

theorem Client.init_ok {E : EcGroup G} (hE : E.Lawful) (cfg : ExpCfg) (els : List Bytes)
    (vals : List Int) (p q : Int) (w : Nat) :
    ∃ K, CipherOf E .sha256 K ∧ Client.init cfg (.ok E) els vals p q w =
      .ok { cfg := cfg, elements := els, values := vals, p := p, q := q, cipher := K,
            paillier := none, size := 0, sum := 0, finished := false } := by
  obtain ⟨K, hK, hK'⟩ := createWithNewKey_ok hE w
  refine ⟨K, hK', ?_⟩
  simp only [Client.init, hK, Res.value, Res.ok_bind, Res.pure_eq]

/-- The run, with the list of client entries that were counted. -/
theorem honestRun_spec {E : EcGroup G} {els : List Bytes} {vals : List Int}
    {inputs : List Bytes} {p q : Nat} (h : Setup E els vals inputs p q) (cfg cfg' : ExpCfg)
    (w : Nat) (c : Client G) (hc : Client.init cfg (.ok E) els vals p q w = .ok c)
    (r1 r2 : ServerRand) (k1 k2 : ClientRand) (hr1 : r1.Ok) (hr2 : r2.Ok) (hk1 : k1.Ok) :
    ∃ c' s', honestRun c (Server.init cfg' (.ok E) inputs) r1 r2 k1 k2 = some (c', s') ∧
      c'.finished = true ∧ s'.finished = true ∧
      ∃ T : List (Bytes × Int), T.Subperm (els.zip vals) ∧
        (∀ id, T.countP (fun t => decide (t.1 = id)) = min (els.count id) (inputs.count id)) ∧
        c'.size = T.length ∧
        c'.sum = (T.map Prod.snd).sum % ((p * q : Nat) : Int) ^ 2 := by
  obtain ⟨hE, hhash, hcoll, hlen, hvals, sp, sq, gp, gq, p2, q2, hpq⟩ := h
  obtain ⟨Kc, hKc, hinit⟩ := Client.init_ok hE cfg els vals p q w
  rw [hinit] at hc
  cases hc
  obtain ⟨Ks, hKs, hKs'⟩ := createWithNewKey_ok hE r1.keyWord
  obtain ⟨e, e', f, hef, hinj⟩ := double_encryption hE hKc hKs' (fun a => a ∈ els ++ inputs)
    hhash (fun a b ha hb => hcoll a ha b hb)
  have Npos : 0 < p * q := Nat.mul_pos sp.1.pos sq.1.pos
  have NposI : (0 : Int) < ((p * q : Nat) : Int) := by exact_mod_cast Npos
  set N : Int := ((p * q : Nat) : Int) with hN
  have hx := hr2.relPrime N NposI
  obtain ⟨⟨pk, hpk⟩, -⟩ := C11_keys_exist cfg' p q 2 (r2.relPrime N) sp sq hpq p2 q2 gp gq
    (by norm_num)
  obtain ⟨-, sk, hsk, -⟩ := C11_keys_exist cfg p q 2 (r2.relPrime N) sp sq hpq p2 q2 gp gq
    (by norm_num)
  obtain ⟨-, hval, -⟩ := C13_validation cfg' cfg p q 2 (by norm_num) (r2.relPrime N) pk sk hpk hsk
  have made : ∀ {m ct}, Made pk sk m ct → 0 ≤ ct := fun hm =>
    (made_ct hx (PublicPaillier.new_good hpk) (PrivatePaillier.new_good (by norm_num) hsk) hm).nonneg
  -- the client's own set
  obtain ⟨T0, t1, t2, t3, t4⟩ := client_encryptLoop (K := Kc) (sk := sk) (e := e)
    (draws := k1.draws) (values := vals) (B := N ^ 2) hk1.draws
    (fun v rp rq h0 h1 hp hq => by
      have := hval v rp rq hp hq
      rw [if_pos ⟨h0, h1⟩] at this
      obtain ⟨ct, hct⟩ := this
      exact ⟨ct, hct, made (.privateEncrypt hp hq hct)⟩)
    hvals els 0 (by omega) (fun a ha => (hef a (by simp [ha])).1)
  -- the server's set
  have s1 := server_encryptLoop (K := Ks) (e := e') inputs
    (fun a ha => (hef a (by simp [ha])).2.2.1)
  have s2 := client_reEncryptLoop (K := Kc) (e := e') (f := f) inputs
    (fun a ha => (hef a (by simp [ha])).2.2.2)
  have s3 := server_reEncryptLoop (K := Ks) (key := fun t : Bytes × Int × Int => t.1)
    (dat := fun t => BN.natToBytes t.2.2.toNat) (e := e) (f := f) T0
    (fun t ht => (hef t.1 (by
      have : t.1 ∈ els := t3 ▸ List.mem_map_of_mem ht
      simp [this])).2.1)
  -- the server receives the client's sorted list
  set re : List EncElement := inputs.map fun a => ⟨f a, []⟩ with hre
  obtain ⟨S1, hS1, eS1⟩ := perm_map_lift (fun a : Bytes => (⟨f a, []⟩ : EncElement))
    (hk1.sort.perm re)
  have hmem : ∀ a, a ∈ T0.map (fun t => t.1) ∨ a ∈ S1 → a ∈ els ++ inputs := by
    intro a ha
    rcases ha with ha | ha
    · rw [t3] at ha; simp [ha]
    · rw [hS1.mem_iff] at ha; simp [ha]
  obtain ⟨T, hT, hinter, hcount⟩ := intersection_spec hr2.sortClient hr2.sortServer T0
    (fun t => t.1) (fun t => BN.natToBytes t.2.2.toNat) f S1 (fun _ => [])
    (fun a b ha hb => hinj a b (hmem a ha) (hmem b hb))
  -- the sum
  have hl := hr2.lessThan N NposI
  have hval0 := (C13_validation cfg' cfg p q 2 (by norm_num) (r2.relPrime N) pk sk hpk hsk).1 0
    (r2.lessThan N) hl.1 hl.2
  rw [if_pos ⟨le_refl _, pow_pos NposI 2⟩] at hval0
  obtain ⟨z, hz⟩ := hval0
  have hsum := sum_made (pk := pk) (sk := sk) (fun t : Bytes × Int × Int => t.2.1)
    (fun t => t.2.2) (fun t => BN.natToBytes t.2.2.toNat) T 0 z (.encrypt hl.1 hz) (by
      intro t ht
      obtain ⟨h0, rp, rq, hp, hq, he⟩ := t4 t (hT.subset ht)
      refine ⟨.privateEncrypt hp hq he, ?_⟩
      rw [BN.ofBytes_natToBytes]
      omega)
  set total := T.foldl (fun acc t => pk.add acc (BN.ofBytes (BN.natToBytes t.2.2.toNat))) z
    with htotal
  have htotal0 := made hsum
  have hdec := C12_homomorphic cfg' cfg p q 2 (by norm_num) (r2.relPrime N) hx pk sk hpk hsk _ _ hsum
  -- the five calls
  have eN : BN.ofBytes (BN.natToBytes N.toNat) = N := by rw [BN.ofBytes_natToBytes]; omega
  have hcomp : Server.computeIntersection
      { cfg := cfg', curve := .ok E, inputs := inputs, cipher := some Ks, finished := false } r2
      { publicKey := BN.natToBytes N.toNat,
        encryptedSet := T0.map fun t => ⟨e t.1, BN.natToBytes t.2.2.toNat⟩,
        reencryptedSet := k1.sort re } =
      .ok { size := T.length, encryptedSum := BN.natToBytes total.toNat } := by
    simp only [Server.computeIntersection, eN]
    rw [hpk]
    simp only [Res.ok_bind, s3, hz, eS1]
    rw [hinter, List.foldl_map, BN.toBytes_of_nonneg htotal0]
    simp only [Res.ok_bind, Res.pure_eq, List.length_map]
  let c0 : Client G := ⟨cfg, els, vals, p, q, Kc, none, 0, 0, false⟩
  let c1 : Client G := ⟨cfg, els, vals, p, q, Kc, some sk, 0, 0, false⟩
  let c2 : Client G := ⟨cfg, els, vals, p, q, Kc, some sk, T.length,
    (0 + (T.map fun t => t.2.1).sum) % N ^ 2, true⟩
  let s1' : Server G := ⟨cfg', .ok E, inputs, some Ks, false⟩
  let s2' : Server G := ⟨cfg', .ok E, inputs, some Ks, true⟩
  let m2 : ClientRoundOne := ⟨BN.natToBytes N.toNat,
    T0.map fun t => ⟨e t.1, BN.natToBytes t.2.2.toNat⟩, k1.sort re⟩
  let m3 : ServerRoundTwo := ⟨T.length, BN.natToBytes total.toNat⟩
  refine ⟨c2, s2', ?_, rfl, rfl, T.map (fun t => (t.1, t.2.1)), ?_, ?_, ?_, ?_⟩
  · have a1 : c0.startProtocol accept = ⟨c0, [.start], .ok ()⟩ := rfl
    have a2 : Server.handle (Server.init cfg' (.ok E) inputs) r1 accept .start =
        ⟨s1', [.roundOne (inputs.map fun a => ⟨e' a, []⟩)], .ok ()⟩ := by
      simp [Server.handle, Server.init, Server.encryptSet, hKs, s1, accept, s1']
    have a3 : c0.handle k1 accept (.roundOne (inputs.map fun a => ⟨e' a, []⟩)) =
        ⟨c1, [.roundOne m2], .ok ()⟩ := by
      have epk : BN.toBytes ((p : Int) * q) = .ok (BN.natToBytes N.toNat) := by
        have : (p : Int) * q = N := by rw [hN]; push_cast; ring
        rw [this, BN.toBytes_of_nonneg NposI.le]
      simp [Client.handle, Client.reEncryptSet, hsk, epk, t1, s2, accept, c0, c1, m2]
    have a4 : s1'.handle r2 accept (.roundOne m2) = ⟨s2', [.roundTwo m3], .ok ()⟩ := by
      simp [Server.handle, hcomp, accept, s1', s2', m2, m3]
    have a5 : c1.handle k2 accept (.roundTwo m3) = ⟨c2, [], .ok ()⟩ := by
      have et : BN.ofBytes (BN.natToBytes total.toNat) = total := by
        rw [BN.ofBytes_natToBytes]; omega
      simp only [Client.handle, Client.decryptSum, et, hdec, c1, c2, m3, Res.ok_bind, Res.pure_eq,
        Bool.false_eq_true, if_false]
      rfl
    show honestRun c0 (Server.init cfg' (.ok E) inputs) r1 r2 k1 k2 = _
    unfold honestRun
    rw [a1]; dsimp only
    rw [a2]; dsimp only
    rw [a3]; dsimp only
    rw [a4]; dsimp only
    rw [a5]
  · rw [List.drop_zero] at t2
    rw [← t2]
    obtain ⟨l, hl, hs⟩ := hT
    exact ⟨l.map _, hl.map _, hs.map _⟩
  · intro id
    rw [List.countP_map]
    have h1 := hcount id
    rw [hS1.count_eq] at h1
    have h2 : T0.countP (fun t => decide (t.1 = id)) = els.count id := by
      rw [← t3, List.count, List.countP_map]
      apply List.countP_congr
      intro t _
      simp
    rw [h2] at h1
    exact h1
  · show (T.length : Int) = _
    rw [List.length_map]
  · show (0 + (T.map fun t => t.2.1).sum) % N ^ 2 = _
    rw [List.map_map, zero_add]
    rfl

/-- **C02**.  With arbitrary repetitions: the run completes, the size is the sum over the
identifiers of the smaller of its two numbers of occurrences, and the sum is that of a
selection `T` of client entries with exactly that many entries of each identifier
(modulo N²). -/
theorem C02_multiset {E : EcGroup G} {els : List Bytes} {vals : List Int}
    {inputs : List Bytes} {p q : Nat} (h : Setup E els vals inputs p q) (cfg cfg' : ExpCfg)
    (w : Nat) (c : Client G) (hc : Client.init cfg (.ok E) els vals p q w = .ok c)
    (r1 r2 : ServerRand) (k1 k2 : ClientRand) (hr1 : r1.Ok) (hr2 : r2.Ok) (hk1 : k1.Ok) :
    ∃ c' s', honestRun c (Server.init cfg' (.ok E) inputs) r1 r2 k1 k2 = some (c', s') ∧
      c'.size = ((∑ id ∈ els.toFinset, min (els.count id) (inputs.count id) : Nat) : Int) ∧
      ∃ T : List (Bytes × Int), T.Subperm (els.zip vals) ∧
        (∀ id, T.countP (fun t => decide (t.1 = id)) = min (els.count id) (inputs.count id)) ∧
        c'.sum = (T.map Prod.snd).sum % ((p * q : Nat) : Int) ^ 2 := by
  obtain ⟨c', s', hrun, -, -, T, hT, hcount, hsize, hsum⟩ :=
    honestRun_spec h cfg cfg' w c hc r1 r2 k1 k2 hr1 hr2 hk1
  refine ⟨c', s', hrun, ?_, T, hT, hcount, hsum⟩
  rw [hsize]
  have h1 : T.length = ∑ id ∈ els.toFinset, (T.map Prod.fst).count id := by
    rw [← List.length_map (f := Prod.fst), ← Multiset.coe_card,
      ← Multiset.sum_count_eq_card (s := els.toFinset)]
    · simp only [Multiset.coe_count]
      congr!
    · intro a ha
      rw [Multiset.mem_coe, List.mem_map] at ha
      obtain ⟨t, ht, rfl⟩ := ha
      exact List.mem_toFinset.2 (List.of_mem_zip (hT.subset ht)).1
  rw [h1]
  congr 1
  apply Finset.sum_congr rfl
  intro id _
  rw [← hcount id, List.count, List.countP_map]
  apply List.countP_congr
  intro t _
  simp

/-- **C01**.  Without repetitions (it is enough that the client's list has none): the run completes, and when the sum is below N² the
client has the number of shared identifiers and the sum of its values on them; if that
fits 64 bits `PrintOutput` prints exactly these two numbers. -/
theorem C01_intersection_sum {E : EcGroup G} {els : List Bytes} {vals : List Int}
    {inputs : List Bytes} {p q : Nat} (h : Setup E els vals inputs p q) (cfg cfg' : ExpCfg)
    (w : Nat) (c : Client G) (hc : Client.init cfg (.ok E) els vals p q w = .ok c)
    (r1 r2 : ServerRand) (k1 k2 : ClientRand) (hr1 : r1.Ok) (hr2 : r2.Ok) (hk1 : k1.Ok)
    (hnc : els.Nodup)
    (hsmall : (((els.zip vals).filter fun t => decide (t.1 ∈ inputs)).map Prod.snd).sum <
      ((p * q : Nat) : Int) ^ 2) :
    ∃ c' s', honestRun c (Server.init cfg' (.ok E) inputs) r1 r2 k1 k2 = some (c', s') ∧
      c'.finished = true ∧ s'.finished = true ∧
      c'.size = (els.filter fun a => decide (a ∈ inputs)).length ∧
      c'.sum = (((els.zip vals).filter fun t => decide (t.1 ∈ inputs)).map Prod.snd).sum ∧
      (c'.sum < 2 ^ 64 → c'.printOutput = .ok (c'.size, c'.sum.toNat)) := by
  obtain ⟨c', s', hrun, hf, hf', T, hT, hcount, hsize, hsum⟩ :=
    honestRun_spec h cfg cfg' w c hc r1 r2 k1 k2 hr1 hr2 hk1
  have hfst : (els.zip vals).map Prod.fst = els := List.map_fst_zip (by have := h.one_value_each; omega)
  have hzn : (els.zip vals).Nodup := by
    apply List.Nodup.of_map Prod.fst
    rw [hfst]; exact hnc
  have hTn : T.Nodup := by
    obtain ⟨l, hl, hs⟩ := hT
    exact hl.nodup_iff.1 (hs.nodup hzn)
  have hperm : T.Perm ((els.zip vals).filter fun t => decide (t.1 ∈ inputs)) := by
    rw [List.perm_ext_iff_of_nodup hTn (hzn.filter _)]
    intro t
    rw [List.mem_filter, decide_eq_true_eq]
    constructor
    · intro ht
      refine ⟨hT.subset ht, ?_⟩
      have h1 := hcount t.1
      have : 0 < T.countP (fun u => decide (u.1 = t.1)) := by
        rw [List.countP_pos_iff]; exact ⟨t, ht, by simp⟩
      rw [h1] at this
      exact List.count_pos_iff.1 (by omega)
    · rintro ⟨hz, hin⟩
      have h1 := hcount t.1
      have hel : t.1 ∈ els := (List.of_mem_zip hz).1
      have c1 := List.count_pos_iff.2 hel
      have c2 := List.count_pos_iff.2 hin
      have : 0 < T.countP (fun u => decide (u.1 = t.1)) := by omega
      rw [List.countP_pos_iff] at this
      obtain ⟨u, hu, hut⟩ := this
      rw [decide_eq_true_eq] at hut
      have hnf : ((els.zip vals).map Prod.fst).Nodup := by rw [hfst]; exact hnc
      have := List.inj_on_of_nodup_map hnf (hT.subset hu) hz hut
      exact this ▸ hu
  have hlen : T.length = (els.filter fun a => decide (a ∈ inputs)).length := by
    rw [hperm.length_eq]
    conv_rhs => rw [← hfst, List.filter_map, List.length_map]
    rfl
  have hsumT : (T.map Prod.snd).sum =
      (((els.zip vals).filter fun t => decide (t.1 ∈ inputs)).map Prod.snd).sum :=
    (hperm.map _).sum_eq
  have hnn : 0 ≤ (T.map Prod.snd).sum := by
    apply List.sum_nonneg
    intro x hx
    obtain ⟨t, ht, rfl⟩ := List.mem_map.1 hx
    exact (h.values t.2 (List.of_mem_zip (hT.subset ht)).2).1
  have hs : c'.sum = (T.map Prod.snd).sum := by
    rw [hsum, Int.emod_eq_of_lt hnn (by rw [hsumT]; exact hsmall)]
  refine ⟨c', s', hrun, hf, hf', by rw [hsize, hlen], by rw [hs, hsumT], ?_⟩
  intro hlt
  have h0 : 0 ≤ c'.sum := by rw [hs]; exact hnn
  simp only [Client.printOutput, hf, Bool.not_true, Bool.false_eq_true, if_false]
  have : BN.toIntValue c'.sum = .ok c'.sum.toNat := by
    rw [BN.toIntValue, if_pos (by omega)]
    congr 1
    omega
  rw [this]
  rfl

/-! ### C03 -/

theorem reEncryptLoop_ok {K : EcCipher G} : ∀ {set r : List EncElement},
    Client.reEncryptLoop K set = .ok r →
    List.Forall₂ (fun e x => K.reEncrypt e.element = .ok x.element ∧ x.data = []) set r
  | [], r, h => by
    simp only [Client.reEncryptLoop, Res.ok.injEq] at h
    subst h; exact .nil
  | e :: es, r, h => by
    simp only [Client.reEncryptLoop, Res.bind_eq_ok, Res.pure_eq, Res.ok.injEq] at h
    obtain ⟨x, hx, rest, hrest, rfl⟩ := h
    exact .cons ⟨hx, rfl⟩ (reEncryptLoop_ok hrest)

theorem reEncryptLoop_of_forall₂ {K : EcCipher G} : ∀ {set r : List EncElement},
    List.Forall₂ (fun e x => K.reEncrypt e.element = .ok x.element ∧ x.data = []) set r →
    Client.reEncryptLoop K set = .ok r
  | _, _, .nil => rfl
  | _, _, .cons (a := e) (b := x) h ht => by
    simp only [Client.reEncryptLoop, h.1, reEncryptLoop_of_forall₂ ht, Res.ok_bind, Res.pure_eq]
    rw [← h.2]

theorem reEncryptLoop_perm {K : EcCipher G} {set set' r : List EncElement} (hp : set'.Perm set)
    (h : Client.reEncryptLoop K set = .ok r) :
    ∃ r', Client.reEncryptLoop K set' = .ok r' ∧ r'.Perm r := by
  have : (Relation.Comp List.Perm (List.Forall₂ fun e x : EncElement =>
      K.reEncrypt e.element = .ok x.element ∧ x.data = [])) set' r := ⟨set, hp, reEncryptLoop_ok h⟩
  rw [← List.forall₂_comp_perm_eq_perm_comp_forall₂] at this
  obtain ⟨r', h1, h2⟩ := this
  exact ⟨r', reEncryptLoop_of_forall₂ h1, h2⟩

theorem sorted_data_nil_eq {l l' : List EncElement} (hl : Sorted l) (hl' : Sorted l')
    (hp : l.Perm l') (hd : ∀ e ∈ l, e.data = []) : l = l' := by
  apply sorted_ext l l' hl hl'
  intro k
  have hrep : ∀ m : List EncElement, (∀ e ∈ m, e.data = []) →
      m.filter (fun e => decide (e.element = k)) =
        List.replicate (m.countP fun e => decide (e.element = k)) ⟨k, []⟩ := by
    intro m hm
    rw [List.eq_replicate_iff]
    refine ⟨by rw [List.countP_eq_length_filter], fun e he => ?_⟩
    rw [List.mem_filter, decide_eq_true_eq] at he
    have := hm e he.1
    cases e
    simp_all
  rw [hrep l hd, hrep l' (fun e he => hd e (hp.mem_iff.2 he)), hp.countP_eq]

theorem reEncryptLoop_data {K : EcCipher G} {set r : List EncElement}
    (h : Client.reEncryptLoop K set = .ok r) : ∀ e ∈ r, e.data = [] := by
  have := reEncryptLoop_ok h
  clear h
  induction this with
  | nil => simp
  | cons hx _ ih =>
    intro e he
    rcases List.mem_cons.1 he with rfl | he
    · exact hx.2
    · exact ih e he

/-- **C03**.  Two server-round-one messages that are permutations of each other lead to the
same client: the same message is sent (or none for either), the client objects are equal
afterwards, and one call succeeds iff the other does — whatever the two runs of `std::sort`
do.  So the reply carries no information about the order of the received list. -/
theorem C03_order_hidden (c : Client G) (draws : Nat → Int × Int)
    (sort sort' : List EncElement → List EncElement) (hs : IsSort sort) (hs' : IsSort sort')
    (sink : ClientMsg → Res Unit) (set set' : List EncElement) (hp : set'.Perm set) :
    let o := c.handle ⟨draws, sort⟩ sink (.roundOne set)
    let o' := c.handle ⟨draws, sort'⟩ sink (.roundOne set')
    o.state = o'.state ∧ o.sent = o'.sent ∧ (o.status = .ok () ↔ o'.status = .ok ()) := by
  intro o o'
  by_cases hf : c.finished = true
  · simp only [o, o', Client.handle, hf, if_true, and_self]
  simp only [o, o', Client.handle, hf, Bool.false_eq_true, if_false, Client.reEncryptSet]
  cases hsk : PrivatePaillier.new c.cfg c.p c.q 2 with
  | err e => simp
  | crash => simp
  | ub => simp
  | ok sk =>
    simp only []
    cases hpk : BN.toBytes (c.p * c.q) with
    | err e => simp
    | crash => simp
    | ub => simp
    | ok pk =>
      simp only [Res.ok_bind]
      cases hown : Client.encryptLoop c.cipher sk c.values draws 0 c.elements with
      | err e => simp
      | crash => simp
      | ub => simp
      | ok own =>
        simp only [Res.ok_bind]
        by_cases hok : ∃ r, Client.reEncryptLoop c.cipher set = .ok r
        · obtain ⟨r, hr⟩ := hok
          obtain ⟨r', hr', hrr⟩ := reEncryptLoop_perm hp hr
          have : sort r = sort' r' := by
            apply sorted_data_nil_eq (hs.sorted r) (hs'.sorted r')
            · exact (hs.perm r).trans (hrr.symm.trans (hs'.perm r').symm)
            · intro e he
              exact reEncryptLoop_data hr e ((hs.perm r).mem_iff.1 he)
          simp only [hr, hr', Res.ok_bind, Res.pure_eq, this, and_self]
        · have hok' : ¬ ∃ r, Client.reEncryptLoop c.cipher set' = .ok r := by
            rintro ⟨r, hr⟩
            obtain ⟨r', hr', -⟩ := reEncryptLoop_perm hp.symm hr
            exact hok ⟨r', hr'⟩
          cases h1 : Client.reEncryptLoop c.cipher set with
          | ok r => exact absurd ⟨r, h1⟩ hok
          | err e =>
            cases h2 : Client.reEncryptLoop c.cipher set' with
            | ok r => exact absurd ⟨r, h2⟩ hok'
            | err e => simp
            | crash => simp
            | ub => simp
          | crash =>
            cases h2 : Client.reEncryptLoop c.cipher set' with
            | ok r => exact absurd ⟨r, h2⟩ hok'
            | err e => simp
            | crash => simp
            | ub => simp
          | ub =>
            cases h2 : Client.reEncryptLoop c.cipher set' with
            | ok r => exact absurd ⟨r, h2⟩ hok'
            | err e => simp
            | crash => simp
            | ub => simp

/-! ### The hypotheses can be met -/

/-- Insertion into a sorted list. -/
def insertElem (x : EncElement) : List EncElement → List EncElement
  | [] => [x]
  | y :: ys => if bytesLt y.element x.element then y :: insertElem x ys else x :: y :: ys

/-- Insertion sort. -/
def insSort : List EncElement → List EncElement
  | [] => []
  | x :: xs => insertElem x (insSort xs)

theorem insertElem_perm (x : EncElement) : ∀ l, (insertElem x l).Perm (x :: l)
  | [] => .refl _
  | y :: ys => by
    simp only [insertElem]
    split
    · exact ((insertElem_perm x ys).cons y).trans (.swap x y ys)
    · exact .refl _

theorem insertElem_sorted (x : EncElement) : ∀ l, Sorted l → Sorted (insertElem x l)
  | [], _ => List.pairwise_singleton _ _
  | y :: ys, h => by
    have h' := List.pairwise_cons.1 h
    simp only [insertElem]
    split
    · rename_i hlt
      refine List.pairwise_cons.2 ⟨?_, insertElem_sorted x ys h'.2⟩
      intro z hz
      rcases List.mem_cons.1 ((insertElem_perm x ys).mem_iff.1 hz) with rfl | hz
      · exact bytesLt_asymm hlt
      · exact h'.1 z hz
    · rename_i hlt
      refine List.pairwise_cons.2 ⟨?_, h⟩
      intro z hz
      rcases List.mem_cons.1 hz with rfl | hz
      · simpa using hlt
      · by_contra hc
        have := bytesLt_of_lt_of_le (show bytesLt z.element x.element = true by simpa using hc)
          (show bytesLt y.element x.element = false by simpa using hlt)
        rw [h'.1 z hz] at this
        cases this

theorem insSort_isSort : IsSort insSort where
  perm l := by
    induction l with
    | nil => exact .refl _
    | cons x xs ih => exact (insertElem_perm x _).trans (ih.cons x)
  sorted l := by
    induction l with
    | nil => exact List.Pairwise.nil
    | cons x xs ih => exact insertElem_sorted x _ ih

/-- Draws for the examples. -/
def toyServerRand : ServerRand := ⟨3, fun _ => 1, fun _ => 0, insSort, insSort⟩

/-- Draws for the examples. -/
def toyClientRand : ClientRand := ⟨fun _ => (1, 2), insSort⟩

theorem toyServerRand_ok : toyServerRand.Ok where
  relPrime n _ := by simp [toyServerRand]
  lessThan n h := ⟨le_refl _, h⟩
  sortClient := insSort_isSort
  sortServer := insSort_isSort

theorem toyClientRand_ok : toyClientRand.Ok where
  draws _ := ⟨by norm_num [toyClientRand], by norm_num [toyClientRand]⟩
  sort := insSort_isSort

/-- Client list {1 ↦ 5, 2 ↦ 9, 4 ↦ 2}, server list {2, 3, 4}, over the toy group with
the safe primes 7 and 11. -/
theorem toySetup : Setup toyEc [[1], [2], [4]] [5, 9, 2] [[2], [3], [4]] 7 11 where
  lawful := toyEc_lawful
  hash_ok a ha := ⟨_, rfl, by revert a; decide⟩
  no_collision := by
    intro a ha b hb h
    have h' := Res.ok.inj h
    revert a b
    decide
  one_value_each := rfl
  values := by decide
  safe_p := ⟨by norm_num, rfl, by norm_num⟩
  safe_q := ⟨by norm_num, rfl, by norm_num⟩
  gen_p := ⟨3, by norm_num, by norm_num, by norm_num⟩
  gen_q := ⟨2, by norm_num, by norm_num, by norm_num⟩
  two_lt_p := by norm_num
  two_lt_q := by norm_num
  ne := by norm_num

/-- C01 on a concrete run: size 2, sum 11. -/
example : ∃ c c' s', Client.init ⟨true, 64⟩ (.ok toyEc) [[1], [2], [4]] [5, 9, 2] 7 11 5 = .ok c ∧
    honestRun c (Server.init ⟨false, 64⟩ (.ok toyEc) [[2], [3], [4]]) toyServerRand toyServerRand
      toyClientRand toyClientRand = some (c', s') ∧ c'.size = 2 ∧ c'.sum = 11 := by
  obtain ⟨K, hK, hinit⟩ := Client.init_ok toyEc_lawful ⟨true, 64⟩ [[1], [2], [4]] [5, 9, 2] 7 11 5
  obtain ⟨c', s', h1, -, -, h2, h3, -⟩ := C01_intersection_sum toySetup ⟨true, 64⟩ ⟨false, 64⟩ 5 _
    hinit toyServerRand toyServerRand toyClientRand toyClientRand toyServerRand_ok toyServerRand_ok
    toyClientRand_ok (by decide) (by decide)
  exact ⟨_, c', s', hinit, h1, by rw [h2]; decide, by rw [h3]; decide⟩

/-- Repetitions: the client has 2 three times, the server twice. -/
theorem toySetupRep : Setup toyEc [[2], [2], [2], [4]] [5, 9, 2, 7] [[2], [3], [2]] 7 11 where
  lawful := toyEc_lawful
  hash_ok a ha := ⟨_, rfl, by revert a; decide⟩
  no_collision := by
    intro a ha b hb h
    have h' := Res.ok.inj h
    revert a b
    decide
  one_value_each := rfl
  values := by decide
  safe_p := ⟨by norm_num, rfl, by norm_num⟩
  safe_q := ⟨by norm_num, rfl, by norm_num⟩
  gen_p := ⟨3, by norm_num, by norm_num, by norm_num⟩
  gen_q := ⟨2, by norm_num, by norm_num, by norm_num⟩
  two_lt_p := by norm_num
  two_lt_q := by norm_num
  ne := by norm_num

/-- C02 on a concrete run: size 2. -/
example : ∃ c c' s', Client.init ⟨true, 64⟩ (.ok toyEc) [[2], [2], [2], [4]] [5, 9, 2, 7] 7 11 5 =
    .ok c ∧
    honestRun c (Server.init ⟨false, 64⟩ (.ok toyEc) [[2], [3], [2]]) toyServerRand toyServerRand
      toyClientRand toyClientRand = some (c', s') ∧ c'.size = 2 := by
  obtain ⟨K, hK, hinit⟩ := Client.init_ok toyEc_lawful ⟨true, 64⟩ [[2], [2], [2], [4]]
    [5, 9, 2, 7] 7 11 5
  obtain ⟨c', s', h1, h2, -⟩ := C02_multiset toySetupRep ⟨true, 64⟩ ⟨false, 64⟩ 5 _
    hinit toyServerRand toyServerRand toyClientRand toyClientRand toyServerRand_ok toyServerRand_ok
    toyClientRand_ok
  exact ⟨_, c', s', hinit, h1, by rw [h2]; decide⟩

end PJC.Protocol
