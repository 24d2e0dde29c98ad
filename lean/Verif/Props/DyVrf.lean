import Verif.Lemmas.DyVrf
import Verif.Props.Ec
set_option linter.unusedSectionVars false
/-
C57-C59, C70: the Dodis-Yampolskiy verifiable random function.

Specification: the value of the function with key `k` at `m` is the base point times the inverse of
`m + k` modulo the group order (`IsEval`); a public key is a Pedersen commitment to the key,
repeated for every generator (`IsKeyPair`).
-/
namespace PJC.Vrf
open PJC.Ped PJC.Props
variable {G : Type} [AddCommGroup G] [DecidableEq G]
variable {gs : List Int} {h n : Int} {v : DyVrf G}

/-- `σ` is the base point times `1 / (m + k)`, computed modulo the order of the group. -/
def IsEval (E : EcGroup G) (base : G) (k m : Int) (σ : G) : Prop :=
  ∃ i : Int, i * (m + k) ≡ 1 [ZMOD E.order] ∧ σ = i • base

/-- The secret key lies in `[1, order)`, and the public key is the commitment to it under the
secret opening. -/
structure IsKeyPair (gs : List Int) (h n : Int) (E : EcGroup G) (pk : Bytes) (sk : VrfPrivateKey) :
    Prop where
  key_pos : 1 ≤ BN.ofBytes sk.key
  key_lt : BN.ofBytes sk.key < E.order
  opening_nonneg : 0 ≤ BN.ofBytes sk.opening
  opening_lt : BN.ofBytes sk.opening < n
  commits : BN.ofBytes pk =
    commitment gs h n (List.replicate gs.length (BN.ofBytes sk.key)) (BN.ofBytes sk.opening)

/-- The value of the function is unique. -/
theorem IsEval.unique {E : EcGroup G} (hE : E.Lawful) {base : G} {k m : Int} {σ τ : G}
    (h1 : IsEval E base k m σ) (h2 : IsEval E base k m τ) : σ = τ := by
  obtain ⟨i, hi, rfl⟩ := h1
  obtain ⟨j, hj, rfl⟩ := h2
  apply hE.zsmul_congr
  calc i = i * 1 := (mul_one i).symm
    _ ≡ i * (j * (m + k)) [ZMOD E.order] := (hj.symm.mul_left i)
    _ = (i * (m + k)) * j := by ring
    _ ≡ 1 * j [ZMOD E.order] := hi.mul_right j
    _ = j := one_mul j

theorem IsEval.smul {E : EcGroup G} (hE : E.Lawful) {base : G} {k m : Int} {σ : G}
    (h1 : IsEval E base k m σ) : (m + k) • σ = base := by
  obtain ⟨i, hi, rfl⟩ := h1
  rw [← mul_zsmul', mul_comm, mul_comm, hE.zsmul_congr hi, one_zsmul]

theorem IsEval.ne {E : EcGroup G} (hE : E.Lawful) {base : G} (hb : base ≠ 0) {k m : Int} {σ : G}
    (h1 : IsEval E base k m σ) : σ ≠ 0 := by
  intro h0
  apply hb
  rw [← h1.smul hE, h0, smul_zero]

/-! ### C57 -/

theorem applyOne_ok (M : Made gs h n v) {k m : Int} (hd : ¬ (v.group.order : Int) ∣ m + k) :
    ∃ σ, applyOne v k m = .ok σ ∧ IsEval v.group v.base k m σ := by
  have hg : Int.gcd (m + k) v.group.order = 1 := by
    rw [Int.gcd_comm]
    rcases (Nat.coprime_or_dvd_of_prime M.lawful.prime (m + k).natAbs) with h1 | h1
    · simpa [Int.gcd] using h1
    · exact absurd (Int.natCast_dvd.2 h1) hd
  obtain ⟨h1, h2, _⟩ := BN.inv_spec M.order_pos hg
  refine ⟨BN.inv (m + k) v.group.order • v.base, ?_, _, ?_, rfl⟩
  · unfold applyOne
    rw [BN.modInverse_ok M.order_pos hg]
    rfl
  · rw [mul_comm]; exact h1

theorem applyOne_err (M : Made gs h n v) {k m : Int} (hd : (v.group.order : Int) ∣ m + k) :
    applyOne v k m = .err .invalidArgument := by
  have hg : Int.gcd (m + k) v.group.order ≠ 1 := by
    intro h1
    have h2 := Int.dvd_coe_gcd hd (dvd_refl (v.group.order : Int))
    rw [h1] at h2
    have := Int.le_of_dvd (by norm_num) h2
    have := M.lawful.prime.one_lt
    omega
  unfold applyOne
  rw [BN.modInverse, if_neg (fun hh => hg hh.2)]
  rfl

/-- **C57**, evaluation.  If no message is the negated key modulo the order, `Apply` returns the
value of the function at every message, in order; otherwise it is InvalidArgument. -/
theorem C57_apply (M : Made gs h n v) (sk : VrfPrivateKey) (ms : List Int) :
    ((∀ m ∈ ms, ¬ (v.group.order : Int) ∣ m + BN.ofBytes sk.key) →
      ∃ σs, apply v ms sk = .ok σs ∧
        List.Forall₂ (IsEval v.group v.base (BN.ofBytes sk.key)) ms σs) ∧
    ((∃ m ∈ ms, (v.group.order : Int) ∣ m + BN.ofBytes sk.key) →
      apply v ms sk = .err .invalidArgument) := by
  unfold apply
  induction ms with
  | nil => exact ⟨fun _ => ⟨[], rfl, .nil⟩, by simp⟩
  | cons m ms ih =>
    rw [List.mapM_cons]
    by_cases hm : (v.group.order : Int) ∣ m + BN.ofBytes sk.key
    · refine ⟨fun hall => absurd hm (hall m (by simp)), fun _ => ?_⟩
      rw [applyOne_err M hm]
      rfl
    · obtain ⟨σ, h1, h2⟩ := applyOne_ok M hm
      rw [h1, Res.ok_bind]
      refine ⟨fun hall => ?_, fun hex => ?_⟩
      · obtain ⟨σs, h3, h4⟩ := ih.1 (fun x hx => hall x (by simp [hx]))
        exact ⟨σ :: σs, by rw [h3]; rfl, .cons h2 h4⟩
      · rw [ih.2 ?_]
        · rfl
        · obtain ⟨x, hx, hd⟩ := hex
          rcases List.mem_cons.1 hx with rfl | hx
          · exact absurd hd hm
          · exact ⟨x, hx, hd⟩

/-- **C57**, keys.  For every hash function and all draws, `GenerateKeyPair` returns a key pair
whose proof `VerifyGenerateKeysProof` accepts. -/
theorem C57_key_proof (M : Made gs h n v) (H : Hashes) (d : KeyDraws) :
    ∃ pk sk π, generateKeyPair H v d = .ok (pk, sk, π) ∧ IsKeyPair gs h n v.group pk sk ∧
      verifyKeyProof H v pk π = .ok () := by
  have hn := M.n1
  have hn0 : 0 < n := by omega
  have Gd := M.good
  obtain ⟨hsec, hchal, hbase⟩ := M.pos
  have hq := M.order_pos
  obtain ⟨k, hk, hk1, hk2⟩ := M.lawful.generatePrivateKey_spec d.key
  obtain ⟨o, ho, ho1, ho2⟩ := randLessThan_ok d.opening hn0
  have vk : Valid gs (List.replicate gs.length k) o := Made.replicate_valid gs (by omega) ho1
  set C := commitment gs h n (List.replicate gs.length k) o with hC
  have hC0 : 0 ≤ C := commitment_nonneg hn0 _ _
  obtain ⟨pk, hpk, hpk'⟩ := toBytes_parse hC0
  obtain ⟨bk, hbk, hbk'⟩ := toBytes_parse (by omega : 0 ≤ k)
  obtain ⟨bo, hbo, hbo'⟩ := toBytes_parse ho1
  set t := (v.params.chal + v.params.sec).toNat with ht
  obtain ⟨dk, hdk, hdk1, hdk2⟩ := randLessThan_ok d.dummyKey
    (by positivity : 0 < (v.group.order : Int) * 2 ^ t)
  obtain ⟨dO, hdo, hdo1, hdo2⟩ := randLessThan_ok d.dummyOpening
    (by positivity : 0 < n * 2 ^ t)
  have vd : Valid gs (List.replicate gs.length dk) dO := Made.replicate_valid gs hdk1 hdo1
  set D := commitment gs h n (List.replicate gs.length dk) dO with hD
  have hD0 : 0 ≤ D := commitment_nonneg hn0 _ _
  obtain ⟨bD, hbD, hbD'⟩ := toBytes_parse hD0
  obtain ⟨c, hc, hc1, hc2⟩ := M.keyChallenge_ok H pk bD
  obtain ⟨bc, hbc, hbc'⟩ := toBytes_parse hc1
  have hkc : 0 ≤ k * c := mul_nonneg (by omega) hc1
  have hoc : 0 ≤ o * c := mul_nonneg ho1 hc1
  obtain ⟨bm, hbm, hbm'⟩ := toBytes_parse (by omega : 0 ≤ dk + k * c)
  obtain ⟨bp, hbp, hbp'⟩ := toBytes_parse (by omega : 0 ≤ dO + o * c)
  refine ⟨pk, ⟨bk, bo⟩, ⟨bc, bm, bp⟩, ?_, ?_, ?_⟩
  · unfold generateKeyPair
    simp only [hk, Res.ok_bind, Ped.commit, Gd.n_eq, ho, Gd.gs_eq, Gd.commit vk, Res.pure_eq, ← hC,
      hpk, hbk, hbo, M.shift v.group.order _ (.inl rfl), M.shift n _ (.inl rfl), ← ht, hdk, hdo,
      Gd.commit vd, ← hD, hbD, hc, hbc, hbm, hbp]
  · refine ⟨?_, ?_, ?_, ?_, ?_⟩
    · show 1 ≤ BN.ofBytes bk
      rw [hbk']; exact hk1
    · show BN.ofBytes bk < _
      rw [hbk']; exact hk2
    · show 0 ≤ BN.ofBytes bo
      rw [hbo']; exact ho1
    · show BN.ofBytes bo < _
      rw [hbo']; exact ho2
    · show BN.ofBytes pk = commitment gs h n (List.replicate gs.length (BN.ofBytes bk)) (BN.ofBytes bo)
      rw [hbk', hbo', hpk']
  · have e1 : (v.params.chal + v.params.sec + 1).toNat = t + 1 := by omega
    have hct : c ≤ 2 ^ t := by
      have : (2 : Int) ^ v.params.chal.toNat ≤ 2 ^ t :=
        pow_le_pow_right₀ (by norm_num) (by omega)
      omega
    have hbound : dk + k * c ≤ v.group.order * 2 ^ (t + 1) := by
      have h1 : k * c ≤ v.group.order * 2 ^ t :=
        mul_le_mul (by omega) hct hc1 (by omega)
      rw [pow_succ]
      nlinarith
    have vm : Valid gs (List.replicate gs.length (dk + k * c)) (dO + o * c) :=
      Made.replicate_valid gs (by omega) (by omega)
    obtain ⟨i, hi, hi0, hrec⟩ := recover hn0
      (commitment_unit M.gsU M.hU (List.replicate gs.length k) o) c.toNat
    have hlin := commitment_linear (h := h) (n := n) hc1 vd vk
    rw [replicate_linear, mul_comm c k, mul_comm c o] at hlin
    have hdummy : keyDummyCommit v pk ⟨bc, bm, bp⟩ = .ok D := by
      unfold keyDummyCommit
      simp only [hbm', hbp', hbc', hpk', Gd.gs_eq, Gd.commit vm, Res.ok_bind, Ped.multiply, Ped.add,
        Gd.n_eq, modExp_ok hc1 hn0.ne', modMul_ok hn0.ne', hi, hC]
      rw [(hrec D _ hlin).1, hD, commitment_emod]
    unfold verifyKeyProof
    rw [M.shift _ _ (.inr (.inr rfl)), Res.ok_bind]
    simp only [hbm', e1]
    rw [if_neg (by omega), hdummy, Res.ok_bind, hbD, Res.ok_bind, hc, Res.ok_bind, hbc',
      if_neg (by simp)]

/-! ### C58 -/

theorem checkLoop_iff {gc : G} : ∀ {es : List G} {zs : List Int} {ds : List G},
    es.length ≤ zs.length → es.length ≤ ds.length →
    (checkLoop gc es zs ds = .ok () ↔
      ∀ i < es.length, zs.getD i 0 • es.getD i 0 = ds.getD i 0 + gc)
  | [], _, _, _, _ => by simp [checkLoop]
  | e :: es, [], _, h, _ => by simp at h
  | e :: es, _ :: _, [], _, h => by simp at h
  | e :: es, z :: zs, d :: ds, h1, h2 => by
    have ih := checkLoop_iff (gc := gc) (es := es) (zs := zs) (ds := ds)
      (by simpa using h1) (by simpa using h2)
    unfold checkLoop
    by_cases hz : z • e = d + gc
    · rw [if_neg (by simpa using hz), ih]
      constructor
      · intro hh i hi
        cases i with
        | zero => simpa using hz
        | succ i => simpa using hh i (by simpa using hi)
      · intro hh i hi
        simpa using hh (i + 1) (by simpa using hi)
    · rw [if_pos (by simpa using hz)]
      constructor
      · intro hh; cases hh
      · intro hh
        exact absurd (by simpa using hh 0 (by simp)) hz

theorem checkLoop_cases {gc : G} : ∀ {es : List G} {zs : List Int} {ds : List G},
    es.length ≤ zs.length → es.length ≤ ds.length →
    checkLoop gc es zs ds = .ok () ∨ checkLoop gc es zs ds = .err .invalidArgument
  | [], _, _, _, _ => .inl (by simp [checkLoop])
  | e :: es, [], _, h, _ => by simp at h
  | e :: es, _ :: _, [], _, h => by simp at h
  | e :: es, z :: zs, d :: ds, h1, h2 => by
    have ih := checkLoop_cases (gc := gc) (es := es) (zs := zs) (ds := ds)
      (by simpa using h1) (by simpa using h2)
    unfold checkLoop
    split
    · exact .inr rfl
    · exact ih

/-- What `VerifyApplyProof` checks. -/
theorem verifyApply_iff (M : Made gs h n v) (H : Hashes) (es : List G) (pk : Bytes) {cm : Int}
    (π : VrfApplyProof) :
    verifyApplyProof H v es pk cm π = .ok () ↔
      ∃ ds c, parseECPointVectorProto v.group π.dummyGs = .ok ds ∧ es.length ≤ gs.length ∧
        es.length = ds.length ∧ gs.length = (parseBigNumVectorProto π.masked).length ∧
        applyChallenge H v es pk cm π.commitDummy π.dummyGs = .ok c ∧
        (∀ z ∈ parseBigNumVectorProto π.masked, (BN.bitLength z : Int) ≤
          BN.bitLength v.group.order + v.params.chal + v.params.sec + 2) ∧
        (∀ i < es.length, (parseBigNumVectorProto π.masked).getD i 0 • es.getD i 0
          = ds.getD i 0 + c • v.base) ∧
        commitment gs h n (parseBigNumVectorProto π.masked) (BN.ofBytes π.maskedOpening) =
          BN.ofBytes π.commitDummy * ((cm * BN.ofBytes pk % n) ^ c.toNat % n) % n := by
  have hn0 : n ≠ 0 := by have := M.n1; omega
  have Gd := M.good
  unfold verifyApplyProof
  cases hp : parseECPointVectorProto v.group π.dummyGs with
  | err e => simp
  | crash => simp
  | ub => simp
  | ok ds =>
    simp only [Res.ok_bind, Gd.gs_eq]
    split
    · simp; omega
    · rename_i h1
      split
      · simp; omega
      · rename_i h2
        split
        · simp; omega
        · rename_i h3
          push Not at h1 h2 h3
          cases hc : applyChallenge H v es pk cm π.commitDummy π.dummyGs with
          | err e => simp
          | crash => simp
          | ub => simp
          | ok c =>
            have hc0 : 0 ≤ c := by
              unfold applyChallenge at hc
              simp only [Res.bind_eq_ok, M.chalBound, Res.ok.injEq] at hc
              obtain ⟨_, _, _, _, _, rfl, hc⟩ := hc
              exact (oracle_nonneg hc).1
            have hV : Valid gs (parseBigNumVectorProto π.masked) (BN.ofBytes π.maskedOpening) := by
              refine ⟨h3.ge, ?_, BN.ofBytes_nonneg _⟩
              intro m hm
              obtain ⟨x, _, rfl⟩ := List.mem_map.1 hm
              exact BN.ofBytes_nonneg _
            simp only [Res.ok_bind, Ped.add, Ped.multiply, Gd.n_eq, modMul_ok hn0,
              modExp_ok hc0 hn0, Gd.commit hV]
            by_cases ha : (parseBigNumVectorProto π.masked).any (tooLong v)
            · rw [if_pos ha]
              obtain ⟨z, hz, hz'⟩ := List.any_eq_true.1 ha
              simp only [tooLong, decide_eq_true_eq] at hz'
              constructor
              · intro hh; cases hh
              · rintro ⟨_, _, _, _, _, _, _, hb, _⟩
                have := hb z hz
                omega
            · rw [if_neg ha]
              have hb : ∀ z ∈ parseBigNumVectorProto π.masked, (BN.bitLength z : Int) ≤
                  BN.bitLength v.group.order + v.params.chal + v.params.sec + 2 := by
                intro z hz
                by_contra hcon
                apply ha
                rw [List.any_eq_true]
                refine ⟨z, hz, ?_⟩
                simp only [tooLong, decide_eq_true_eq]
                omega
              have hiff := checkLoop_iff (gc := c • v.base) (es := es)
                (zs := parseBigNumVectorProto π.masked) (ds := ds) (by omega) h2.le
              rcases checkLoop_cases (gc := c • v.base) (es := es)
                (zs := parseBigNumVectorProto π.masked) (ds := ds) (by omega) h2.le with hl | hl
              · rw [hl, Res.ok_bind]
                constructor
                · intro hh
                  split at hh
                  · cases hh
                  · rename_i he
                    push Not at he
                    exact ⟨ds, c, rfl, h1, h2, h3, rfl, hb, hiff.1 hl, he⟩
                · rintro ⟨ds', c', hds', _, _, _, hc', _, _, he⟩
                  cases hc'
                  rw [if_neg (by simpa using he)]
              · rw [hl, Res.err_bind]
                constructor
                · intro hh; cases hh
                · rintro ⟨ds', c', hds', _, _, _, hc', _, hloop, _⟩
                  cases hc'
                  cases hds'
                  rw [hiff.2 hloop] at hl
                  cases hl

theorem bitLength_le {x : Int} {q : Nat} {a : Nat} (h0 : 0 ≤ x) (h : x ≤ 4 * (q * 2 ^ a)) (hq : 0 < q) :
    BN.bitLength x ≤ BN.bitLength q + a + 2 := by
  unfold BN.bitLength
  rw [Nat.size_le]
  have h1 : q < 2 ^ Nat.size q := Nat.lt_size_self q
  have h2 : (x.natAbs : Int) = x := Int.natAbs_of_nonneg h0
  have h3 : x.natAbs ≤ 4 * (q * 2 ^ a) := by
    have : (x.natAbs : Int) ≤ ((4 * (q * 2 ^ a) : Nat) : Int) := by rw [h2]; push_cast; exact h
    exact_mod_cast this
  calc x.natAbs ≤ 4 * (q * 2 ^ a) := h3
    _ < 4 * (2 ^ Nat.size q * 2 ^ a) :=
      Nat.mul_lt_mul_of_pos_left (Nat.mul_lt_mul_of_pos_right h1 (by positivity)) (by norm_num)
    _ = 2 ^ (Nat.size (Int.natAbs (q : Int)) + a + 2) := by
      rw [Int.natAbs_natCast, pow_add, pow_add]; ring

/-- **C58**.  For every hash function and all draws: take a key pair, at most as many messages as
there are generators, all below the order, the values of the function at them and a commitment to
them with its opening.  Then `GenerateApplyProof` returns a proof that `VerifyApplyProof` accepts;
the only exception, reported as INTERNAL, is when two draws for one message cancel modulo the
order. -/
theorem C58_complete (M : Made gs h n v) (H : Hashes) (pk : Bytes) (sk : VrfPrivateKey)
    (hkey : IsKeyPair gs h n v.group pk sk) (ms : List Int) (hlen : ms.length ≤ gs.length)
    (hms : ∀ m ∈ ms, 0 ≤ m ∧ m < v.group.order) (es : List G)
    (hes : List.Forall₂ (IsEval v.group v.base (BN.ofBytes sk.key)) ms es) (r : Int) (hr : 0 ≤ r)
    (d : ApplyDraws) :
    (∃ π, generateApplyProof H v ms es pk sk (commitment gs h n ms r) r d = .ok π ∧
      verifyApplyProof H v es pk (commitment gs h n ms r) π = .ok ()) ∨
    (generateApplyProof H v ms es pk sk (commitment gs h n ms r) r d = .err .internal ∧
      ∃ i < ms.length, (v.group.order : Int) ∣
        (d.message i : Int) % (v.group.order * 2 ^ (v.params.sec + v.params.chal).toNat) +
        (d.key : Int) % (v.group.order * 2 ^ (v.params.sec + v.params.chal).toNat)) := by
  have hn0 : 0 < n := by have := M.n1; omega
  have Gd := M.good
  obtain ⟨hsec, hchal, hbase⟩ := M.pos
  have hq := M.order_pos
  set t := (v.params.sec + v.params.chal).toNat with ht
  set q : Int := (v.group.order : Int) with hqdef
  have hB : 0 < q * 2 ^ t := by positivity
  set k := BN.ofBytes sk.key with hk
  set o := BN.ofBytes sk.opening with ho
  have hk1 := hkey.key_pos
  have hk2 := hkey.key_lt
  have ho1 := hkey.opening_nonneg
  have hpk := hkey.commits
  rw [← hk, ← ho] at hpk
  have hlenes : ms.length = es.length := hes.length_eq
  have hes0 : ∀ e ∈ es, e ≠ 0 := by
    intro e he
    obtain ⟨i, hi, rfl⟩ := List.mem_iff_getElem.1 he
    exact (hes.get (by omega) hi).ne M.lawful hbase
  -- draws
  set dk := (d.key : Int) % (q * 2 ^ t) with hdk
  have hdk0 : 0 ≤ dk := Int.emod_nonneg _ hB.ne'
  have hdkB : dk < q * 2 ^ t := Int.emod_lt_of_pos _ hB
  have hrand : ∀ w : Nat, Ctx.randLessThan w (q * 2 ^ t) = .ok ((w : Int) % (q * 2 ^ t)) := by
    intro w; simp [Ctx.randLessThan, not_le.2 hB]
  set N := gs.length with hN
  set L := ms.length with hL
  let dAt : Nat → Int := fun i => if i < L then (d.message i : Int) % (q * 2 ^ t) + dk else dk
  set dums := (List.range N).map dAt with hdums
  have hdumM : (List.range N).mapM (dummyAt (q * 2 ^ t) dk L d.message) = .ok dums := by
    apply mapM_eq_map
    intro i _
    unfold dummyAt
    by_cases hi : i < L
    · simp only [hi, if_true, hrand, Res.ok_bind, Res.pure_eq, dAt]
    · simp only [hi, if_false, dAt]
  have hdumGet : ∀ i < N, dums.getD i 0 = dAt i := by
    intro i hi
    simp [hdums, List.getD_eq_getElem?_getD, hi]
  have hdAt0 : ∀ i, 0 ≤ dAt i ∧ dAt i ≤ 2 * (q * 2 ^ t) := by
    intro i
    simp only [dAt]
    split
    · have := Int.emod_nonneg (d.message i : Int) hB.ne'
      have := Int.emod_lt_of_pos (d.message i : Int) hB
      omega
    · omega
  obtain ⟨dO, hdO, hdO0, hdO1⟩ := randLessThan_ok d.opening (by positivity : 0 < n * 2 ^ t)
  have hdumLen : dums.length = N := by simp [hdums]
  have vd : Valid gs dums dO := by
    refine ⟨hdumLen.le, ?_, hdO0⟩
    intro m hm
    obtain ⟨i, _, rfl⟩ := List.mem_map.1 hm
    exact (hdAt0 i).1
  set D := commitment gs h n dums dO with hD
  have hD0 : 0 ≤ D := commitment_nonneg hn0 _ _
  let pAt : Nat → G := fun i => dAt i • es.getD i 0
  set pts := (List.range L).map pAt with hpts
  have hptsM : (List.range L).mapM (dummyG es dums) = .ok pts := by
    apply mapM_eq_map
    intro i hi
    have hi : i < L := List.mem_range.1 hi
    have h1 : es[i]? = some (es.getD i 0) := by
      simp [List.getD_eq_getElem?_getD, (by omega : i < es.length)]
    have h2 : dums[i]? = some (dAt i) := by
      simp [hdums, (by omega : i < N)]
    simp only [dummyG, h1, h2, pAt]
  have hmsg1 : applyProofMessage1 v ms es d = .ok (D, pts, dums, dk, dO) := by
    unfold applyProofMessage1
    simp only [M.shift _ _ (.inr (.inl rfl)), Res.ok_bind, ← ht, Gd.n_eq, Gd.gs_eq, ← hqdef, ← hL,
      hrand, ← hdk, ← hN, hdumM, hdO, Gd.commit vd, ← hD, hptsM, Res.pure_eq]
  obtain ⟨bD, hbD, hbD'⟩ := toBytes_parse hD0
  have hcm0 : 0 ≤ commitment gs h n ms r := commitment_nonneg hn0 _ _
  rcases ecPoints_cases M.lawful pts with ⟨bp, hbp⟩ | ⟨h0, hbp⟩
  swap
  · right
    refine ⟨?_, ?_⟩
    · unfold generateApplyProof
      simp only [hmsg1, Res.ok_bind, hbD, hbp, Res.err_bind]
    · obtain ⟨i, hi, hi0⟩ := List.mem_map.1 h0
      have hi : i < L := List.mem_range.1 hi
      refine ⟨i, hi, ?_⟩
      by_contra hnd
      have hne : es.getD i 0 ≠ 0 := by
        apply hes0
        simp [List.getD_eq_getElem?_getD, (by omega : i < es.length)]
      apply M.lawful.zsmul_ne hnd hne
      simpa only [pAt, dAt, hi, if_true] using hi0
  · left
    have hbp' := (ecPoints_ok M.lawful hbp).2
    obtain ⟨c, hc, hc0, hc1⟩ := M.applyChallenge_ok H pk hcm0 hes0 bD bp
    let zAt : Nat → Int := fun i => dAt i + (if i < L then (ms.getD i 0 + k) * c else k * c)
    set zs := (List.range N).map zAt with hzs
    have hzsM : (List.range N).mapM (maskedAt ms dums k dk c) = .ok zs := by
      apply mapM_eq_map
      intro i hi
      have hi : i < N := List.mem_range.1 hi
      unfold maskedAt
      by_cases hiL : i < L
      · have h1 : ms[i]? = some (ms.getD i 0) := getElem?_getD 0 hiL
        have h2 : dums[i]? = some (dAt i) := by simp [hdums, hi]
        simp only [h1, h2, zAt, hiL, if_true]
      · have h1 : ms[i]? = none := by simp; omega
        simp only [h1, zAt, dAt, hiL, if_false]
    have hmget : ∀ i, 0 ≤ ms.getD i 0 ∧ ms.getD i 0 ≤ q := by
      intro i
      by_cases hi : i < ms.length
      · have := hms (ms.getD i 0) (by simp [List.getD_eq_getElem?_getD, hi])
        omega
      · rw [List.getD_eq_getElem?_getD, List.getElem?_eq_none (by omega)]
        simp; omega
    have hct : c ≤ 2 ^ t := by
      have : (2 : Int) ^ v.params.chal.toNat ≤ 2 ^ t :=
        pow_le_pow_right₀ (by norm_num) (by omega)
      omega
    have hz0 : ∀ i, 0 ≤ zAt i ∧ zAt i ≤ 4 * (q * 2 ^ t) := by
      intro i
      have h1 := hdAt0 i
      have h2 := hmget i
      have h3 : 0 ≤ (ms.getD i 0 + k) * c := mul_nonneg (by omega) hc0
      have h4 : 0 ≤ k * c := mul_nonneg (by omega) hc0
      have h5 : (ms.getD i 0 + k) * c ≤ (2 * q) * 2 ^ t :=
        mul_le_mul (by omega) hct hc0 (by omega)
      have h6 : k * c ≤ (2 * q) * 2 ^ t := mul_le_mul (by omega) hct hc0 (by omega)
      have h7 : (2 * q) * 2 ^ t = 2 * (q * 2 ^ t) := by ring
      simp only [zAt]
      split <;> omega
    have hzpos : ∀ z ∈ zs, 0 ≤ z := by
      intro z hz
      obtain ⟨i, _, rfl⟩ := List.mem_map.1 hz
      exact (hz0 i).1
    obtain ⟨bz, hbz, hbz'⟩ := mapM_toBytes_round hzpos
    have hmo0 : 0 ≤ dO + (o + r) * c := by
      have := mul_nonneg (by omega : 0 ≤ o + r) hc0
      omega
    obtain ⟨bo, hbo, hbo'⟩ := toBytes_parse hmo0
    refine ⟨⟨bD, bp, bz, bo⟩, ?_, ?_⟩
    · unfold generateApplyProof
      simp only [hmsg1, Res.ok_bind, hbD, hbp, hc, Gd.gs_eq, ← hN, ← hk, ← ho, hzsM, hbz, hbo,
        Res.pure_eq]
    · rw [verifyApply_iff M]
      refine ⟨pts, c, hbp', by omega, by simp [hpts]; omega, ?_, hc, ?_, ?_, ?_⟩
      · rw [hbz', hzs]; simp [hN]
      · rw [hbz']
        intro z hz
        obtain ⟨i, _, rfl⟩ := List.mem_map.1 hz
        have := bitLength_le (hz0 i).1 (hz0 i).2 M.lawful.prime.pos
        omega
      · rw [hbz']
        intro i hi
        have hiL : i < L := by omega
        have e1 : zs.getD i 0 = zAt i := by
          simp [hzs, List.getD_eq_getElem?_getD, (by omega : i < N)]
        have e2 : pts.getD i 0 = pAt i := by
          simp [hpts, List.getD_eq_getElem?_getD, hiL]
        have e3 : (ms.getD i 0 + k) • es.getD i 0 = v.base := by
          have := (hes.get (i := i) hiL hi).smul M.lawful
          rw [List.get_eq_getElem, List.get_eq_getElem, getElem_getD 0, getElem_getD 0] at this
          exact this
        rw [e1, e2]
        simp only [zAt, pAt, hiL, if_true]
        rw [add_zsmul, mul_comm, mul_zsmul, e3]
      · rw [hbz', hbo', hbD', hpk]
        have hmsV : Valid gs ms r := ⟨hlen, fun m hm => (hms m hm).1, hr⟩
        have hkV : Valid gs (List.replicate N k) o := Made.replicate_valid gs (by omega) ho1
        rw [← commitment_add hmsV hkV]
        have hlin := commitment_linear (h := h) (n := n) hc0 vd (hmsV.add hkV)
        have e : addVec dums ((addVec ms (List.replicate N k)).map (c * ·)) = zs := by
          apply ext_getD
          · simp [addVec_length, hzs, hdumLen]; omega
          · intro i hi
            have hi : i < N := by
              simp [addVec_length, hdumLen] at hi; omega
            rw [addVec_getD, getD_map_mul, addVec_getD, getD_replicate hi, hdumGet i hi]
            have : zs.getD i 0 = zAt i := by
              simp [hzs, List.getD_eq_getElem?_getD, hi]
            rw [this]
            simp only [zAt]
            split
            · ring
            · rw [List.getD_eq_getElem?_getD, List.getElem?_eq_none (by omega)]
              simp; ring
        rw [e, show dO + c * (r + o) = dO + (o + r) * c by ring] at hlin
        rw [← commitment_emod]
        refine hlin.trans ?_
        exact (Int.mod_modEq _ n).symm.mul_left _

/-- The bound on the number of messages is needed: with more messages than generators,
`GenerateApplyProof` reads beyond the end of a vector. -/
theorem C58_too_many_messages (M : Made gs h n v) (H : Hashes) (pk : Bytes) (sk : VrfPrivateKey)
    (ms : List Int) (hlen : gs.length < ms.length) (es : List G) (hes : es.length = ms.length)
    (cm r : Int) (d : ApplyDraws) : generateApplyProof H v ms es pk sk cm r d = .ub := by
  have hn0 : 0 < n := by have := M.n1; omega
  have Gd := M.good
  have hq := M.order_pos
  have hB : 0 < (v.group.order : Int) * 2 ^ (v.params.sec + v.params.chal).toNat := by positivity
  have hrand : ∀ w : Nat, Ctx.randLessThan w ((v.group.order : Int) *
      2 ^ (v.params.sec + v.params.chal).toNat) = .ok ((w : Int) % ((v.group.order : Int) *
      2 ^ (v.params.sec + v.params.chal).toNat)) := by
    intro w; simp [Ctx.randLessThan, not_le.2 hB]
  set B := (v.group.order : Int) * 2 ^ (v.params.sec + v.params.chal).toNat with hBdef
  obtain ⟨dO, hdO, hdO0, hdO1⟩ := randLessThan_ok d.opening
    (by positivity : 0 < n * 2 ^ (v.params.sec + v.params.chal).toNat)
  set dums := (List.range gs.length).map (fun i => if i < ms.length then
    (d.message i : Int) % B + (d.key : Int) % B else (d.key : Int) % B) with hdums
  have hdumM : (List.range gs.length).mapM (dummyAt B ((d.key : Int) % B) ms.length d.message)
      = .ok dums := by
    apply mapM_eq_map
    intro i _
    unfold dummyAt
    by_cases hi : i < ms.length
    · simp only [hi, if_true, hrand, Res.ok_bind, Res.pure_eq]
    · simp only [hi, if_false]
  have vd : Valid gs dums dO := by
    refine ⟨by simp [hdums], ?_, hdO0⟩
    intro m hm
    obtain ⟨i, _, rfl⟩ := List.mem_map.1 hm
    have := Int.emod_nonneg (d.message i : Int) hB.ne'
    have := Int.emod_nonneg (d.key : Int) hB.ne'
    split <;> omega
  have hub : (List.range ms.length).mapM (dummyG es dums) = .ub := by
    have h1 : List.range ms.length = List.range gs.length ++
        gs.length :: (List.range (ms.length - gs.length - 1)).map (gs.length + 1 + ·) := by
      apply List.ext_getElem
      · simp; omega
      · intro i h1 h2
        rw [List.getElem_range]
        by_cases hi : i < gs.length
        · rw [List.getElem_append_left (by simpa using hi), List.getElem_range]
        · rw [List.getElem_append_right (by simpa using hi)]
          simp only [List.length_range]
          by_cases hi2 : i = gs.length
          · subst hi2; simp
          · obtain ⟨j, rfl⟩ : ∃ j, i = gs.length + (j + 1) := ⟨i - gs.length - 1, by omega⟩
            simp; omega
    have h2 : (List.range gs.length).mapM (dummyG es dums)
        = .ok ((List.range gs.length).map (fun i => dums.getD i 0 • es.getD i 0)) := by
      apply mapM_eq_map
      intro i hi
      have hi := List.mem_range.1 hi
      have e1 : es[i]? = some (es.getD i 0) := by
        simp [List.getD_eq_getElem?_getD, (by omega : i < es.length)]
      have e2 : dums[i]? = some (dums.getD i 0) := by
        simp [List.getD_eq_getElem?_getD, hdums, hi]
      simp only [dummyG, e1, e2]
    have h3 : dummyG es dums gs.length = .ub := by
      unfold dummyG
      rw [show dums[gs.length]? = none by simp [hdums]]
      cases es[gs.length]? <;> rfl
    rw [h1, List.mapM_append, h2, Res.ok_bind, List.mapM_cons, h3]
    rfl
  unfold generateApplyProof applyProofMessage1
  simp only [M.shift _ _ (.inr (.inl rfl)), Res.ok_bind, Gd.n_eq, Gd.gs_eq, ← hBdef, hrand, hdumM,
    hdO, Gd.commit vd, hub, Res.ub_bind]

/-! A concrete instance: the toy curve of order 11, generators 2, 3 and 5 modulo 77. -/

/-- Parameters for the examples. -/
def toyParams : VrfParams := ⟨2, 3, [], [1], ⟨[77], [[2], [3]], [5]⟩⟩

example : ∃ (v : DyVrf (ZMod 11)) (pk : Bytes) (sk : VrfPrivateKey) (es : List (ZMod 11)),
    Made [2, 3] 5 77 v ∧ IsKeyPair [2, 3] 5 77 v.group pk sk ∧
    (∀ m ∈ [1, 2], 0 ≤ m ∧ m < (v.group.order : Int)) ∧
    List.Forall₂ (IsEval v.group v.base (BN.ofBytes sk.key)) [1, 2] es := by
  obtain ⟨p, hp, _⟩ := create_good (gs := [2, 3]) (h := 5) (n := 77) (k := 4) (by decide)
    (by decide) (by decide)
  refine ⟨⟨toyParams, toyEc, 1, p⟩, BN.natToBytes (commitment [2, 3] 5 77 [3, 3] 4).toNat,
    ⟨[3], [4]⟩, [3, 9], ⟨toyEc_lawful, by decide, by decide, by decide, ⟨4, by decide, by decide, hp⟩,
      rfl, (by decide : toyParams.chal ≤ 129000), (by decide : toyParams.sec ≤ 2 ^ 30)⟩,
    ⟨by decide, (by decide : (3 : Int) < 11), by decide, by decide, by decide +kernel⟩,
    (by decide : ∀ m ∈ [1, 2], 0 ≤ m ∧ m < (11 : Int)), ?_⟩
  exact .cons ⟨3, (by decide : 3 * (1 + 3) ≡ 1 [ZMOD 11]), (by decide : (3 : ZMod 11) = (3 : Int) • (1 : ZMod 11))⟩
    (.cons ⟨9, (by decide : 9 * (2 + 3) ≡ 1 [ZMOD 11]), (by decide : (9 : ZMod 11) = (9 : Int) • (1 : ZMod 11))⟩ .nil)

/-- Everything computed on the toy instance: a key pair is made and accepted, the function is
evaluated at two messages, and proofs made with two hash functions from the same draws are accepted,
share their first message and have different responses. -/
def toyRun (H H' : Hashes) : Res (Bool × Bool) := do
  let ped ← Ped.create [2, 3] 5 77 4
  let v ← Vrf.create toyParams toyEc ped
  let (pk, sk, π) ← generateKeyPair H v ⟨2, 4, 30, 100⟩
  verifyKeyProof H v pk π
  let es ← Vrf.apply v [1, 2] sk
  let cm ← Ped.commitWithRand ped [1, 2] 6
  let p ← generateApplyProof H v [1, 2] es pk sk cm 6 ⟨20, fun i => 30 + i, 50⟩
  let p' ← generateApplyProof H' v [1, 2] es pk sk cm 6 ⟨20, fun i => 30 + i, 50⟩
  verifyApplyProof H v es pk cm p
  verifyApplyProof H' v es pk cm p'
  return (decide (p.commitDummy = p'.commitDummy ∧ p.dummyGs = p'.dummyGs),
    decide (p.masked = p'.masked))

example : toyRun ⟨id, id, fun _ => 255 :: List.replicate 63 1, fun _ b => b⟩ ⟨id, id, fun _ => 31 :: List.replicate 63 0, fun _ b => b⟩
    = .ok (true, false) := by decide +kernel

/-! ### C59 -/

/-- **C59**.  Two accepted evaluation proofs for the same statement with the same first message,
checked with hash functions that gave the challenges `c` and `c'`: for every evaluation `σ` and the
corresponding masked values `z`, `z'`, `(z - z') • σ = (c - c') • base`, and the masked values are
openings of the product of the commitments to the messages and to the key, raised to `c - c'`. -/
theorem C59_special_soundness (M : Made gs h n v) (H H' : Hashes) (es : List G) (pk : Bytes)
    (cm : Int) (π π' : VrfApplyProof)
    (hv : verifyApplyProof H v es pk cm π = .ok ())
    (hv' : verifyApplyProof H' v es pk cm π' = .ok ())
    (hm : π.commitDummy = π'.commitDummy ∧ π.dummyGs = π'.dummyGs) (c c' : Int)
    (hc : applyChallenge H v es pk cm π.commitDummy π.dummyGs = .ok c)
    (hc' : applyChallenge H' v es pk cm π'.commitDummy π'.dummyGs = .ok c') :
    let zs := parseBigNumVectorProto π.masked
    let zs' := parseBigNumVectorProto π'.masked
    zs.length = gs.length ∧ zs'.length = gs.length ∧ es.length ≤ gs.length ∧
    (∀ (i : Nat) (σ : G) (z z' : Int), es[i]? = some σ → zs[i]? = some z → zs'[i]? = some z' →
      (z - z') • σ = (c - c') • v.base) ∧
    commitment gs h n zs (BN.ofBytes π.maskedOpening) * (cm * BN.ofBytes pk) ^ c'.toNat ≡
      commitment gs h n zs' (BN.ofBytes π'.maskedOpening) * (cm * BN.ofBytes pk) ^ c.toNat
      [ZMOD n] := by
  intro zs zs'
  obtain ⟨ds, c1, hds, hl, hl2, hl3, hc1, hb, hloop, hcom⟩ := (verifyApply_iff M H es pk π).1 hv
  obtain ⟨ds', c1', hds', -, hl2', hl3', hc1', hb', hloop', hcom'⟩ :=
    (verifyApply_iff M H' es pk π').1 hv'
  rw [hc] at hc1
  rw [hc'] at hc1'
  cases hc1
  cases hc1'
  rw [hm.2, hds'] at hds
  cases hds
  refine ⟨hl3.symm, hl3'.symm, hl, ?_, ?_⟩
  · intro i σ z z' h1 h2 h3
    have hi : i < es.length := (List.getElem?_eq_some_iff.1 h1).1
    have e1 := hloop i hi
    have e2 := hloop' i hi
    have g1 : es.getD i 0 = σ := by simp [List.getD_eq_getElem?_getD, h1]
    have g2 : (parseBigNumVectorProto π.masked).getD i 0 = z := by
      rw [List.getD_eq_getElem?_getD]
      exact congrArg (·.getD 0) h2
    have g3 : (parseBigNumVectorProto π'.masked).getD i 0 = z' := by
      rw [List.getD_eq_getElem?_getD]
      exact congrArg (·.getD 0) h3
    rw [g1, g2] at e1
    rw [g1, g3] at e2
    rw [sub_zsmul, sub_zsmul, e1, e2]
    abel
  · have k : ∀ (x : Int) (a : Nat), (x % n) ^ a % n ≡ x ^ a [ZMOD n] := fun x a =>
      (Int.mod_modEq _ n).trans ((Int.mod_modEq x n).pow a)
    have q1 : commitment gs h n zs (BN.ofBytes π.maskedOpening) ≡
        BN.ofBytes π.commitDummy * (cm * BN.ofBytes pk) ^ c.toNat [ZMOD n] := by
      rw [show commitment gs h n zs (BN.ofBytes π.maskedOpening) = _ from hcom]
      exact (Int.mod_modEq _ n).trans ((k _ _).mul_left _)
    have q2 : commitment gs h n zs' (BN.ofBytes π'.maskedOpening) ≡
        BN.ofBytes π.commitDummy * (cm * BN.ofBytes pk) ^ c'.toNat [ZMOD n] := by
      rw [show commitment gs h n zs' (BN.ofBytes π'.maskedOpening) = _ from hcom', hm.1]
      exact (Int.mod_modEq _ n).trans ((k _ _).mul_left _)
    calc commitment gs h n zs (BN.ofBytes π.maskedOpening) * (cm * BN.ofBytes pk) ^ c'.toNat
        ≡ (BN.ofBytes π.commitDummy * (cm * BN.ofBytes pk) ^ c.toNat) *
          (cm * BN.ofBytes pk) ^ c'.toNat [ZMOD n] := q1.mul_right _
      _ = (BN.ofBytes π.commitDummy * (cm * BN.ofBytes pk) ^ c'.toNat) *
          (cm * BN.ofBytes pk) ^ c.toNat := by ring
      _ ≡ _ [ZMOD n] := (q2.mul_right _).symm

/-- **C59**, extraction.  If moreover the challenges differ modulo the order of the group, every
evaluation is the base point times the inverse of the extracted exponent `(z - z') / (c - c')`. -/
theorem C59_extract (M : Made gs h n v) (H H' : Hashes) (es : List G) (pk : Bytes)
    (cm : Int) (π π' : VrfApplyProof)
    (hv : verifyApplyProof H v es pk cm π = .ok ())
    (hv' : verifyApplyProof H' v es pk cm π' = .ok ())
    (hm : π.commitDummy = π'.commitDummy ∧ π.dummyGs = π'.dummyGs) (c c' : Int)
    (hc : applyChallenge H v es pk cm π.commitDummy π.dummyGs = .ok c)
    (hc' : applyChallenge H' v es pk cm π'.commitDummy π'.dummyGs = .ok c')
    (hne : ¬ (v.group.order : Int) ∣ c - c') (i : Nat) (σ : G) (hσ : es[i]? = some σ) :
    ∃ z z' x : Int, (parseBigNumVectorProto π.masked)[i]? = some z ∧
      (parseBigNumVectorProto π'.masked)[i]? = some z' ∧
      x * (c - c') ≡ z - z' [ZMOD v.group.order] ∧
      ∃ j : Int, j * x ≡ 1 [ZMOD v.group.order] ∧ σ = j • v.base := by
  obtain ⟨h1, h2, h3, h4, -⟩ := C59_special_soundness M H H' es pk cm π π' hv hv' hm c c' hc hc'
  have hi : i < es.length := (List.getElem?_eq_some_iff.1 hσ).1
  have hE := M.lawful
  obtain ⟨-, -, hbase⟩ := M.pos
  refine ⟨(parseBigNumVectorProto π.masked).getD i 0, (parseBigNumVectorProto π'.masked).getD i 0, ?_⟩
  set z := (parseBigNumVectorProto π.masked).getD i 0
  set z' := (parseBigNumVectorProto π'.masked).getD i 0
  have hz : (parseBigNumVectorProto π.masked)[i]? = some z := getElem?_getD 0 (by omega)
  have hz' : (parseBigNumVectorProto π'.masked)[i]? = some z' := getElem?_getD 0 (by omega)
  have heq := h4 i σ z z' hσ hz hz'
  have coprime : ∀ a : Int, ¬ (v.group.order : Int) ∣ a → ∃ b : Int, a * b ≡ 1 [ZMOD v.group.order] := by
    intro a ha
    have hg : Int.gcd a v.group.order = 1 := by
      rw [Int.gcd_comm]
      rcases (Nat.coprime_or_dvd_of_prime hE.prime a.natAbs) with h1 | h1
      · simpa [Int.gcd] using h1
      · exact absurd (Int.natCast_dvd.2 h1) ha
    exact ⟨_, (BN.inv_spec M.order_pos hg).1⟩
  obtain ⟨w, hw⟩ := coprime _ hne
  have hzne : ¬ (v.group.order : Int) ∣ z - z' := by
    intro hd
    have : (z - z') • σ = 0 := by
      rw [hE.zsmul_congr (Int.modEq_zero_iff_dvd.2 hd), zero_zsmul]
    rw [this] at heq
    exact hE.zsmul_ne hne hbase heq.symm
  obtain ⟨u, hu⟩ := coprime _ hzne
  refine ⟨w * (z - z'), hz, hz', ?_, u * (c - c'), ?_, ?_⟩
  · calc w * (z - z') * (c - c') = ((c - c') * w) * (z - z') := by ring
      _ ≡ 1 * (z - z') [ZMOD v.group.order] := hw.mul_right _
      _ = z - z' := one_mul _
  · calc u * (c - c') * (w * (z - z')) = ((c - c') * w) * ((z - z') * u) := by ring
      _ ≡ 1 * 1 [ZMOD v.group.order] := hw.mul hu
      _ = 1 := by norm_num
  · rw [mul_zsmul, ← heq, ← mul_zsmul, mul_comm, hE.zsmul_congr hu, one_zsmul]

/-- **C59**, sizes.  Accepted masked values have at most
`bits(order) + challenge length + security parameter + 2` bits. -/
theorem C59_bounded (M : Made gs h n v) (H : Hashes) (es : List G) (pk : Bytes) (cm : Int)
    (π : VrfApplyProof) (hv : verifyApplyProof H v es pk cm π = .ok ()) :
    ∀ z ∈ parseBigNumVectorProto π.masked, 0 ≤ z ∧ (BN.bitLength z : Int) ≤
      BN.bitLength v.group.order + v.params.chal + v.params.sec + 2 := by
  obtain ⟨ds, c1, hds, hl, hl2, hl3, hc1, hb, hloop, hcom⟩ := (verifyApply_iff M H es pk π).1 hv
  intro z hz
  refine ⟨?_, hb z hz⟩
  obtain ⟨x, _, rfl⟩ := List.mem_map.1 hz
  exact BN.ofBytes_nonneg _

/-! ### C70 -/

theorem parsePoints_cases {E : EcGroup G} : ∀ bs : List Bytes,
    (∃ Ps, parseECPointVectorProto E bs = .ok Ps) ∨
      parseECPointVectorProto E bs = .err .invalidArgument
  | [] => .inl ⟨[], rfl⟩
  | b :: bs => by
    have ih := parsePoints_cases (E := E) bs
    unfold parseECPointVectorProto at ih ⊢
    rw [List.mapM_cons]
    have : (∃ P, E.createECPoint b = .ok P) ∨ E.createECPoint b = .err .invalidArgument := by
      unfold EcGroup.createECPoint
      split
      · exact .inr rfl
      · split
        · exact .inr rfl
        · exact .inl ⟨_, rfl⟩
    rcases this with ⟨P, hP⟩ | hP
    · rw [hP, Res.ok_bind]
      rcases ih with ⟨Ps, h⟩ | h
      · exact .inl ⟨P :: Ps, by rw [h]; rfl⟩
      · exact .inr (by rw [h]; rfl)
    · exact .inr (by rw [hP]; rfl)

/-- **C70**, key proofs: whatever bytes a peer sends, `VerifyGenerateKeysProof` accepts or returns
InvalidArgument; it never aborts and never runs into undefined behaviour. -/
theorem C70_key_proof_total (M : Made gs h n v) (H : Hashes) (pk : Bytes) (π : VrfKeyProof) :
    verifyKeyProof H v pk π = .ok () ∨ verifyKeyProof H v pk π = .err .invalidArgument := by
  have hn0 : 0 < n := by have := M.n1; omega
  have Gd := M.good
  have vm : Valid gs (List.replicate gs.length (BN.ofBytes π.maskedKey))
      (BN.ofBytes π.maskedOpening) :=
    Made.replicate_valid gs (BN.ofBytes_nonneg _) (BN.ofBytes_nonneg _)
  unfold verifyKeyProof
  rw [M.shift _ _ (.inr (.inr rfl)), Res.ok_bind]
  split
  · exact .inr rfl
  · have hd : keyDummyCommit v pk π = .err .invalidArgument ∨
        ∃ D, keyDummyCommit v pk π = .ok D ∧ 0 ≤ D := by
      unfold keyDummyCommit
      simp only [Gd.gs_eq, Gd.commit vm, Res.ok_bind, Ped.multiply, Ped.add, Gd.n_eq,
        modExp_ok (BN.ofBytes_nonneg _) hn0.ne']
      unfold BN.modInverse
      split
      · right
        rw [Res.ok_bind, modMul_ok hn0.ne']
        exact ⟨_, rfl, Int.emod_nonneg _ hn0.ne'⟩
      · exact .inl rfl
    rcases hd with hd | ⟨D, hd, hD⟩
    · rw [hd]; exact .inr rfl
    · obtain ⟨b, hb, _⟩ := toBytes_parse hD
      obtain ⟨c, hc, _⟩ := M.keyChallenge_ok H pk b
      rw [hd, Res.ok_bind, hb, Res.ok_bind, hc, Res.ok_bind]
      split
      · exact .inr rfl
      · exact .inl rfl

/-- **C70**, evaluation proofs: whatever bytes a peer sends, `VerifyApplyProof` accepts or returns
an error (INTERNAL only if an evaluation is the point at infinity). -/
theorem C70_apply_proof_total (M : Made gs h n v) (H : Hashes) (es : List G) (pk : Bytes) (cm : Int)
    (hcm : 0 ≤ cm) (π : VrfApplyProof) :
    verifyApplyProof H v es pk cm π = .ok () ∨
    verifyApplyProof H v es pk cm π = .err .invalidArgument ∨
    (verifyApplyProof H v es pk cm π = .err .internal ∧ (0 : G) ∈ es) := by
  have hn0 : n ≠ 0 := by have := M.n1; omega
  have Gd := M.good
  unfold verifyApplyProof
  rcases parsePoints_cases (E := v.group) π.dummyGs with ⟨ds, hp⟩ | hp
  · simp only [hp, Res.ok_bind, Gd.gs_eq]
    split
    · exact .inr (.inl rfl)
    · rename_i h1
      split
      · exact .inr (.inl rfl)
      · rename_i h2
        split
        · exact .inr (.inl rfl)
        · rename_i h3
          push Not at h1 h2 h3
          by_cases he : (0 : G) ∈ es
          · have hc : applyChallenge H v es pk cm π.commitDummy π.dummyGs = .err .internal := by
              obtain ⟨b, hb, _⟩ := toBytes_parse hcm
              unfold applyChallenge
              rw [hb, Res.ok_bind]
              rcases ecPoints_cases M.lawful es with ⟨bs, hh⟩ | ⟨_, hh⟩
              · exact absurd rfl ((ecPoints_ok M.lawful hh).1 0 he)
              · rw [hh]; rfl
            rw [hc]
            exact .inr (.inr ⟨rfl, he⟩)
          · obtain ⟨c, hc, hc0, _⟩ := M.applyChallenge_ok H pk hcm
              (fun e hh h0 => he (h0 ▸ hh)) π.commitDummy π.dummyGs
            have hV : Valid gs (parseBigNumVectorProto π.masked) (BN.ofBytes π.maskedOpening) := by
              refine ⟨h3.ge, ?_, BN.ofBytes_nonneg _⟩
              intro m hm
              obtain ⟨x, _, rfl⟩ := List.mem_map.1 hm
              exact BN.ofBytes_nonneg _
            simp only [hc, Res.ok_bind, Ped.add, Ped.multiply, Gd.n_eq, modMul_ok hn0,
              modExp_ok hc0 hn0, Gd.commit hV]
            split
            · exact .inr (.inl rfl)
            · rcases checkLoop_cases (gc := c • v.base) (es := es)
                (zs := parseBigNumVectorProto π.masked) (ds := ds) (by omega) h2.le with hl | hl
              · rw [hl, Res.ok_bind]
                split
                · exact .inr (.inl rfl)
                · exact .inl rfl
              · rw [hl]
                exact .inr (.inl rfl)
  · rw [hp]
    exact .inr (.inl rfl)

/-! ### C73 -/

/-- **C73**.  Two accepted key proofs for the same public key whose recomputed first messages
agree (as two runs rewound to the same commitment give), with challenges `c` and `c'`: the masked
keys and openings open the public key raised to `c - c'`, as commitments to a single repeated
value; and accepted masked keys are at most the order shifted by
`challenge length + security parameter + 1`. -/
theorem C73_key_special_soundness (M : Made gs h n v) (H H' : Hashes) (pk : Bytes)
    (π π' : VrfKeyProof) (hv : verifyKeyProof H v pk π = .ok ())
    (hv' : verifyKeyProof H' v pk π' = .ok ())
    (hd : keyDummyCommit v pk π = keyDummyCommit v pk π') :
    commitment gs h n (List.replicate gs.length (BN.ofBytes π.maskedKey))
        (BN.ofBytes π.maskedOpening) * BN.ofBytes pk ^ (BN.ofBytes π'.challenge).toNat ≡
      commitment gs h n (List.replicate gs.length (BN.ofBytes π'.maskedKey))
        (BN.ofBytes π'.maskedOpening) * BN.ofBytes pk ^ (BN.ofBytes π.challenge).toNat [ZMOD n] ∧
    BN.ofBytes π.maskedKey ≤ v.group.order * 2 ^ (v.params.chal + v.params.sec + 1).toNat := by
  have hn0 : 0 < n := by have := M.n1; omega
  have Gd := M.good
  have key : ∀ (K : Hashes) (ρ : VrfKeyProof), verifyKeyProof K v pk ρ = .ok () →
      ∃ D, keyDummyCommit v pk ρ = .ok D ∧
        commitment gs h n (List.replicate gs.length (BN.ofBytes ρ.maskedKey))
          (BN.ofBytes ρ.maskedOpening) ≡ D * BN.ofBytes pk ^ (BN.ofBytes ρ.challenge).toNat
          [ZMOD n] ∧
        BN.ofBytes ρ.maskedKey ≤ v.group.order * 2 ^ (v.params.chal + v.params.sec + 1).toNat := by
    intro K ρ hρ
    have vm : Valid gs (List.replicate gs.length (BN.ofBytes ρ.maskedKey))
        (BN.ofBytes ρ.maskedOpening) :=
      Made.replicate_valid gs (BN.ofBytes_nonneg _) (BN.ofBytes_nonneg _)
    unfold verifyKeyProof at hρ
    rw [M.shift _ _ (.inr (.inr rfl)), Res.ok_bind] at hρ
    split at hρ
    · cases hρ
    · rename_i hb
      push Not at hb
      simp only [Res.bind_eq_ok] at hρ
      obtain ⟨D, hD, -⟩ := hρ
      refine ⟨D, hD, ?_, hb⟩
      unfold keyDummyCommit at hD
      simp only [Gd.gs_eq, Gd.commit vm, Res.ok_bind, Ped.multiply, Ped.add, Gd.n_eq,
        modExp_ok (BN.ofBytes_nonneg _) hn0.ne', modMul_ok hn0.ne', Res.bind_eq_ok,
        Res.ok.injEq] at hD
      obtain ⟨i, hi, hD⟩ := hD
      exact recover_sound hi hD.symm
  obtain ⟨D, h1, h2, h3⟩ := key H π hv
  obtain ⟨D', h1', h2', h3'⟩ := key H' π' hv'
  rw [hd, h1'] at h1
  have hDD : D' = D := by cases h1; rfl
  subst hDD
  refine ⟨?_, h3⟩
  calc _ ≡ (D' * BN.ofBytes pk ^ (BN.ofBytes π.challenge).toNat) *
        BN.ofBytes pk ^ (BN.ofBytes π'.challenge).toNat [ZMOD n] := h2.mul_right _
    _ = (D' * BN.ofBytes pk ^ (BN.ofBytes π'.challenge).toNat) *
        BN.ofBytes pk ^ (BN.ofBytes π.challenge).toNat := by ring
    _ ≡ _ [ZMOD n] := (h2'.mul_right _).symm

/-- Two accepted key proofs with one first message and different challenges. -/
def toyKeyRun (H H' : Hashes) : Res (Bool × Bool) := do
  let ped ← Ped.create [2, 3] 5 77 4
  let v ← Vrf.create toyParams toyEc ped
  let (pk, _, π) ← generateKeyPair H v ⟨2, 4, 30, 100⟩
  let (pk', _, π') ← generateKeyPair H' v ⟨2, 4, 30, 100⟩
  verifyKeyProof H v pk π
  verifyKeyProof H' v pk' π'
  let D ← keyDummyCommit v pk π
  let D' ← keyDummyCommit v pk' π'
  return (decide (pk = pk' ∧ D = D'), decide (π.challenge = π'.challenge))

example : toyKeyRun ⟨id, id, fun _ => 255 :: List.replicate 63 1, fun _ b => b⟩ ⟨id, id, fun _ => 31 :: List.replicate 63 0, fun _ b => b⟩
    = .ok (true, false) := by decide +kernel

end PJC.Vrf
