import Verif.Model.Pedersen
import Verif.Props.Exp
import Verif.Props.Context
import Mathlib.FieldTheory.Finite.Basic
/-
Lemmas about the Pedersen commitment model.
-/
namespace PJC.Ped
open PJC.Props

/-! ### Modular facts -/

/-- Equality of remainders is equality in `ZMod`. -/
theorem emod_eq_iff {n a b : Int} (hn : 0 < n) :
    a % n = b % n ↔ ((a : ZMod n.toNat) = (b : ZMod n.toNat)) := by
  rw [ZMod.intCast_eq_intCast_iff, Int.toNat_of_nonneg (by omega)]
  exact Iff.rfl

theorem isUnit_cast {n h : Int} (hn : 0 < n) (hg : Int.gcd h n = 1) :
    IsUnit (h : ZMod n.toNat) := by
  obtain ⟨a, b, hab⟩ := Int.isCoprime_iff_gcd_eq_one.2 hg
  have h1 : ((a * h + b * n : Int) : ZMod n.toNat) = ((1 : Int) : ZMod n.toNat) := by rw [hab]
  have h2 : ((n : Int) : ZMod n.toNat) = 0 := by
    rw [ZMod.intCast_zmod_eq_zero_iff_dvd, Int.toNat_of_nonneg (by omega)]
  push_cast at h1
  rw [h2, mul_zero, add_zero, mul_comm] at h1
  exact IsUnit.of_mul_eq_one _ h1

/-- In a finite commutative monoid a ratio of powers of a unit is a power. -/
theorem ratio_pow {N : Nat} [NeZero N] {h g : ZMod N} (hu : IsUnit h) {a b : Nat}
    (e : h ^ a = h ^ b * g) : ∃ k : Nat, g = h ^ k := by
  obtain ⟨u, rfl⟩ := hu
  have h1 : (u : ZMod N) ^ Nat.totient N = 1 := by
    rw [← Units.val_pow_eq_pow_val, ZMod.pow_totient, Units.val_one]
  have hpos : 0 < Nat.totient N := Nat.totient_pos.2 (NeZero.pos N)
  refine ⟨a + b * (Nat.totient N - 1), ?_⟩
  rw [pow_add, e]
  have : (u : ZMod N) ^ b * (u : ZMod N) ^ (b * (Nat.totient N - 1)) = 1 := by
    rw [← pow_add]
    have : b + b * (Nat.totient N - 1) = Nat.totient N * b := by
      obtain ⟨t, ht⟩ : ∃ t, Nat.totient N = t + 1 := ⟨_, (Nat.succ_pred_eq_of_pos hpos).symm⟩
      rw [ht]; simp; ring
    rw [this, pow_mul, h1, one_pow]
  rw [mul_right_comm, this, one_mul]

/-! ### Commitments -/

/-- Specification: the commitment to `ms` with randomness `r`, missing messages counting as 0. -/
def commitment (gs : List Int) (h n : Int) (ms : List Int) (r : Int) : Int :=
  (prodOfPowers gs ms * h ^ r.toNat) % n

theorem prodOfPowers_pad : ∀ (gs ms : List Int) (h r : Int), ms.length ≤ gs.length →
    prodOfPowers (gs ++ [h]) (ms ++ List.replicate (gs.length - ms.length) 0 ++ [r]) =
      prodOfPowers gs ms * h ^ r.toNat := by
  intro gs
  induction gs with
  | nil =>
    intro ms h r hl
    have : ms = [] := List.eq_nil_of_length_eq_zero (by simpa using hl)
    subst this
    simp [prodOfPowers]
  | cons g gs ih =>
    intro ms h r hl
    cases ms with
    | nil =>
      have := ih [] h r (by simp)
      simp only [List.nil_append, List.length_nil, Nat.sub_zero] at this
      simp only [List.nil_append, List.length_cons, List.length_nil, Nat.sub_zero,
        List.replicate_succ, List.cons_append]
      unfold prodOfPowers at this ⊢
      simp only [List.zipWith_cons_cons, List.prod_cons, this]
      simp
    | cons m ms =>
      have := ih ms h r (by simpa using hl)
      simp only [List.length_cons, Nat.add_sub_add_right, List.cons_append]
      unfold prodOfPowers at this ⊢
      simp only [List.zipWith_cons_cons, List.prod_cons] at this ⊢
      rw [this]
      ring

/-- What `Create` establishes. -/
structure Good (p : Pedersen) (gs : List Int) (h n : Int) : Prop where
  gs_eq : p.gs = gs
  h_eq : p.h = h
  n_eq : p.n = n
  exp : ∀ es : List Int, es.length = gs.length + 1 → (∀ e ∈ es, 0 ≤ e) →
    p.sim.simultaneousExp es = .ok (prodOfPowers (gs ++ [h]) es % n)

theorem create_good {gs : List Int} {h n : Int} {k : Nat} (hn : 1 < n) (hk : 1 ≤ k) (hk' : k < 31) :
    ∃ p, create gs h n k = .ok p ∧ Good p gs h n := by
  obtain ⟨s, hs, hspec⟩ := C17_simultaneous_exp n (gs ++ [h]) (min (gs ++ [h]).length k) hn
    (by simp; omega) (by simp) (by omega)
  refine ⟨⟨gs, h, n, s⟩, ?_, rfl, rfl, rfl, ?_⟩
  · simp only [create, hs, Res.value_ok, Res.ok_bind, Res.pure_eq]
  · intro es hl hpos
    exact (hspec es).1 (by simpa using hl) hpos

/-- Acceptable messages and randomness. -/
structure Valid (gs : List Int) (ms : List Int) (r : Int) : Prop where
  len : ms.length ≤ gs.length
  msgs : ∀ m ∈ ms, 0 ≤ m
  rand : 0 ≤ r

theorem Good.exponents {p : Pedersen} {gs : List Int} {h n : Int} (G : Good p gs h n)
    {ms : List Int} {r : Int} (v : Valid gs ms r) :
    p.sim.simultaneousExp (exponents p ms r) = .ok (commitment gs h n ms r) := by
  unfold Ped.exponents commitment
  rw [G.gs_eq, G.exp, prodOfPowers_pad _ _ _ _ v.len]
  · have := v.len
    simp; omega
  · intro e he
    simp only [List.mem_append, List.mem_replicate, List.mem_singleton] at he
    rcases he with (he | he) | he
    · exact v.msgs e he
    · omega
    · rw [he]; exact v.rand

theorem Good.commit {p : Pedersen} {gs : List Int} {h n : Int} (G : Good p gs h n)
    {ms : List Int} {r : Int} (v : Valid gs ms r) :
    commitWithRand p ms r = .ok (commitment gs h n ms r) := by
  unfold commitWithRand
  have h1 : ms.any (fun m => !BN.isNonNegative m) = false := by
    simp only [List.any_eq_false, BN.isNonNegative]
    intro m hm
    simpa using v.msgs m hm
  rw [if_neg (by rw [G.gs_eq]; exact not_lt.2 v.len), h1, G.exponents v]
  simp [BN.isNonNegative, v.rand]

theorem Good.verify {p : Pedersen} {gs : List Int} {h n : Int} (G : Good p gs h n)
    {ms : List Int} {r : Int} (v : Valid gs ms r) (c : Int) :
    verify p c ms r = .ok (decide (c = commitment gs h n ms r)) := by
  unfold Ped.verify
  have h1 : ms.any (fun m => !BN.isNonNegative m) = false := by
    simp only [List.any_eq_false, BN.isNonNegative]
    intro m hm
    simpa using v.msgs m hm
  rw [if_neg (by rw [G.gs_eq]; exact not_lt.2 v.len), h1, G.exponents v]
  simp [BN.isNonNegative, v.rand]

theorem Good.refuse {p : Pedersen} {gs : List Int} {h n : Int} (G : Good p gs h n)
    {ms : List Int} {r : Int} (v : ¬ Valid gs ms r) (c : Int) :
    commitWithRand p ms r = .err .invalidArgument ∧ Ped.verify p c ms r = .err .invalidArgument := by
  unfold commitWithRand Ped.verify
  rw [G.gs_eq]
  by_cases h1 : gs.length < ms.length
  · simp [h1]
  · simp only [h1, if_false]
    by_cases h2 : ms.any (fun m => !BN.isNonNegative m) = true
    · simp [h2]
    · simp only [h2]
      by_cases h3 : 0 ≤ r
      · exfalso
        apply v
        refine ⟨by omega, ?_, h3⟩
        intro m hm
        simp only [List.any_eq_true, not_exists, not_and, BN.isNonNegative] at h2
        simpa using h2 m hm
      · simp [BN.isNonNegative, h3]

/-! ### Sums and multiples -/

/-- Specification: componentwise sums, missing entries counting as 0. -/
def addVec : List Int → List Int → List Int
  | [], ys => ys
  | xs, [] => xs
  | x :: xs, y :: ys => (x + y) :: addVec xs ys

theorem addVec_length : ∀ xs ys : List Int, (addVec xs ys).length = max xs.length ys.length
  | [], ys => by simp [addVec]
  | x :: xs, [] => by simp [addVec]
  | x :: xs, y :: ys => by simp [addVec, addVec_length xs ys]

theorem addVec_nonneg : ∀ {xs ys : List Int}, (∀ x ∈ xs, 0 ≤ x) → (∀ y ∈ ys, 0 ≤ y) →
    ∀ z ∈ addVec xs ys, 0 ≤ z
  | [], ys, _, h => by simpa [addVec] using h
  | x :: xs, [], h, _ => by simpa [addVec] using h
  | x :: xs, y :: ys, h1, h2 => by
    intro z hz
    simp only [addVec, List.mem_cons] at hz
    rcases hz with rfl | hz
    · have := h1 x (by simp); have := h2 y (by simp); omega
    · exact addVec_nonneg (fun x hx => h1 x (by simp [hx])) (fun x hx => h2 x (by simp [hx])) z hz

theorem prodOfPowers_add : ∀ (gs xs ys : List Int), (∀ x ∈ xs, 0 ≤ x) → (∀ y ∈ ys, 0 ≤ y) →
    prodOfPowers gs (addVec xs ys) = prodOfPowers gs xs * prodOfPowers gs ys
  | [], xs, ys, _, _ => by simp [prodOfPowers]
  | g :: gs, [], ys, _, _ => by simp [prodOfPowers, addVec]
  | g :: gs, x :: xs, [], _, _ => by simp [prodOfPowers, addVec]
  | g :: gs, x :: xs, y :: ys, h1, h2 => by
    have ih := prodOfPowers_add gs xs ys (fun x hx => h1 x (by simp [hx]))
      (fun x hx => h2 x (by simp [hx]))
    have hx := h1 x (by simp)
    have hy := h2 y (by simp)
    simp only [prodOfPowers, addVec, List.zipWith_cons_cons, List.prod_cons] at ih ⊢
    rw [ih, Int.toNat_add hx hy, pow_add]
    ring

theorem prodOfPowers_mul {k : Int} (hk : 0 ≤ k) : ∀ (gs xs : List Int), (∀ x ∈ xs, 0 ≤ x) →
    prodOfPowers gs (xs.map (k * ·)) = prodOfPowers gs xs ^ k.toNat
  | [], xs, _ => by simp [prodOfPowers]
  | g :: gs, [], _ => by simp [prodOfPowers]
  | g :: gs, x :: xs, h1 => by
    have ih := prodOfPowers_mul hk gs xs (fun x hx => h1 x (by simp [hx]))
    have hx := h1 x (by simp)
    simp only [prodOfPowers, List.map_cons, List.zipWith_cons_cons, List.prod_cons] at ih ⊢
    rw [ih, mul_pow, ← pow_mul, Int.toNat_mul hk hx, mul_comm k.toNat]

theorem commitment_add {gs : List Int} {h n : Int} {ms ms' : List Int} {r r' : Int}
    (v : Valid gs ms r) (v' : Valid gs ms' r') :
    commitment gs h n (addVec ms ms') (r + r') =
      (commitment gs h n ms r * commitment gs h n ms' r') % n := by
  unfold commitment
  rw [prodOfPowers_add _ _ _ v.msgs v'.msgs, Int.toNat_add v.rand v'.rand, pow_add, ← Int.mul_emod]
  ring_nf

theorem commitment_mul {gs : List Int} {h n : Int} {ms : List Int} {r k : Int} (hk : 0 ≤ k)
    (v : Valid gs ms r) :
    commitment gs h n (ms.map (k * ·)) (k * r) = commitment gs h n ms r ^ k.toNat % n := by
  unfold commitment
  rw [prodOfPowers_mul hk _ _ v.msgs, Int.toNat_mul hk v.rand, mul_comm k.toNat, pow_mul, ← mul_pow]
  exact ((Int.mod_modEq _ n).pow k.toNat).symm

/-! ### The parameter proofs -/

theorem bitsLoop_ok : ∀ (k : Nat) (c : Int), ∃ bs, bitsLoop k c = .ok bs ∧ bs.length = k
  | 0, _ => ⟨[], rfl, rfl⟩
  | k + 1, c => by
    obtain ⟨bs, h1, h2⟩ := bitsLoop_ok k (c.tdiv (2 ^ (1 : Int).toNat))
    refine ⟨BN.isBitSet c 0 :: bs, ?_, by simp [h2]⟩
    simp only [bitsLoop, BN.rshift]
    rw [if_neg (by decide), Res.ok_bind, h1, Res.ok_bind, Res.pure_eq]

theorem genProofChallenge_length {H : Hashes} {g h n : Int} {ds : List Int} {reps : Int}
    {cs : List Bool} (hc : genProofChallenge H g h n ds reps = .ok cs) : cs.length = reps.toNat := by
  unfold genProofChallenge at hc
  simp only [Res.bind_eq_ok] at hc
  obtain ⟨_, _, _, _, c, _, hc⟩ := hc
  obtain ⟨bs, h1, h2⟩ := bitsLoop_ok reps.toNat c
  rw [h1] at hc
  cases hc
  exact h2

theorem dummies_ok {h n : Int} {zk : Int} : ∀ {ws : List Nat} {ds : List (Int × Int)},
    dummies h n zk ws = .ok ds → ds.length = ws.length ∧
      ∀ d ∈ ds, 0 < n ∧ 0 ≤ d.1 ∧ d.2 = h ^ d.1.toNat % n := by
  intro ws
  induction ws with
  | nil => intro ds hd; simp only [dummies, Res.ok.injEq] at hd; subst hd; simp
  | cons w ws ih =>
    intro ds hd
    simp only [dummies, Res.bind_eq_ok] at hd
    obtain ⟨b, hb, r, hr, g, hg, rest, hrest, hd⟩ := hd
    simp only [Res.pure_eq, Res.ok.injEq] at hd
    subst hd
    obtain ⟨h1, h2⟩ := ih hrest
    refine ⟨by simp [h1], ?_⟩
    intro d hd
    rcases List.mem_cons.1 hd with rfl | hd
    · unfold BN.lshift at hb
      split at hb
      · cases hb
      · cases hb
        unfold Ctx.randLessThan at hr
        split at hr
        · cases hr
        · rename_i hb
          cases hr
          push Not at hb
          have hn : 0 < n := by
            by_contra hc
            have : n * 2 ^ (1 + zk).toNat ≤ 0 :=
              mul_nonpos_of_nonpos_of_nonneg (by omega) (by positivity)
            omega
          have hr0 : 0 ≤ (w : Int) % (n * 2 ^ (1 + zk).toNat) := Int.emod_nonneg _ (by omega)
          refine ⟨hn, hr0, ?_⟩
          unfold BN.modExp at hg
          rw [if_neg (by omega), if_neg (by omega)] at hg
          cases hg
          rfl
    · exact h2 d hd

theorem verifyLoop_complete {g h n r : Int} (hr : 0 ≤ r) (hg : g = h ^ r.toNat % n) (hn : 0 < n) :
    ∀ (cs : List Bool) (ds : List (Int × Int)), cs.length = ds.length →
    (∀ d ∈ ds, 0 ≤ d.1 ∧ d.2 = h ^ d.1.toNat % n) →
    verifyLoop g h n cs (ds.map Prod.snd)
      (List.zipWith (fun c (d : Int × Int) => if c then d.1 + r else d.1) cs ds) = .ok () := by
  intro cs
  induction cs with
  | nil =>
    intro ds hl _
    have : ds = [] := List.eq_nil_of_length_eq_zero (by simpa using hl.symm)
    subst this
    rfl
  | cons c cs ih =>
    intro ds hl hd
    match ds, hl with
    | d :: ds, hl =>
      obtain ⟨h0, h1⟩ := hd d (by simp)
      simp only [List.map_cons, List.zipWith_cons_cons, verifyLoop]
      have ihh := ih ds (by simpa using hl) (fun x hx => hd x (by simp [hx]))
      cases c with
      | false =>
        simp only [expected, Bool.false_eq_true, if_false, Res.ok_bind, BN.modExp]
        rw [if_neg (by omega), if_neg (by omega), Res.ok_bind, if_neg (by rw [h1]; simp)]
        exact ihh
      | true =>
        have hdr : ¬ d.1 + r < 0 := not_lt.2 (Int.add_nonneg h0 hr)
        simp only [expected, if_true, BN.modMul, BN.mod, BN.modExp]
        rw [if_neg (by omega), Res.ok_bind, if_neg hdr, if_neg (by omega), Res.ok_bind,
          if_neg, ihh]
        rw [h1, hg, Int.toNat_add h0 hr, pow_add, ← Int.mul_emod]
        simp

/-- What an accepted repetition says. -/
theorem verifyLoop_sound {g h n : Int} : ∀ {cs : List Bool} {ds ss : List Int},
    verifyLoop g h n cs ds ss = .ok () → ∀ (i : Nat) (c : Bool) (d : Int), cs[i]? = some c →
      ds[i]? = some d → ∃ s, ss[i]? = some s ∧ 0 ≤ s ∧ n ≠ 0 ∧
        h ^ s.toNat % n = if c then d * g % n else d := by
  intro cs
  induction cs with
  | nil => intro ds ss _ i c d hc; simp at hc
  | cons c cs ih =>
    intro ds ss hv i c' d hc hd
    match ds, ss with
    | [], _ => simp at hd
    | _ :: _, [] => simp [verifyLoop] at hv
    | d' :: ds, s :: ss =>
      simp only [verifyLoop, Res.bind_eq_ok] at hv
      obtain ⟨e, he, hs, hhs, hv⟩ := hv
      split at hv
      · cases hv
      · rename_i hne
        push Not at hne
        cases i with
        | zero =>
          simp only [List.getElem?_cons_zero, Option.some.injEq] at hc hd
          subst hc hd
          refine ⟨s, by simp, ?_⟩
          unfold BN.modExp at hhs
          split at hhs
          · cases hhs
          · split at hhs
            · cases hhs
            · rename_i h1 h2
              cases hhs
              refine ⟨by omega, h2, ?_⟩
              rw [hne]
              cases c with
              | false => simp [expected] at he; simp [he]
              | true =>
                simp only [expected, if_true, BN.modMul, BN.mod] at he
                rw [if_neg h2] at he
                cases he
                rfl
        | succ i =>
          simp only [List.getElem?_cons_succ] at hc hd ⊢
          exact ih hv i c' d hc hd

theorem mapM_toBytes_ok : ∀ {ds : List Int}, (∀ d ∈ ds, 0 ≤ d) →
    ∃ bs, ds.mapM BN.toBytes = .ok bs
  | [], _ => ⟨[], rfl⟩
  | d :: ds, h => by
    obtain ⟨bs, hb⟩ := mapM_toBytes_ok (fun x hx => h x (List.mem_cons_of_mem _ hx) : ∀ x ∈ ds, 0 ≤ x)
    refine ⟨BN.natToBytes d.toNat :: bs, ?_⟩
    rw [List.mapM_cons, BN.toBytes_of_nonneg (h d (by simp)), Res.ok_bind, hb]
    rfl

theorem transcript_ok {g h n : Int} {ds : List Int} (hg : 0 ≤ g) (hh : 0 ≤ h) (hn : 0 ≤ n)
    (hd : ∀ d ∈ ds, 0 ≤ d) : ∃ b, transcript g h n ds = .ok b := by
  obtain ⟨bs, hb⟩ := mapM_toBytes_ok hd
  refine ⟨BN.natToBytes g.toNat ++ BN.natToBytes h.toNat ++ BN.natToBytes n.toNat ++ bs.flatten, ?_⟩
  unfold transcript
  rw [BN.toBytes_of_nonneg hg, BN.toBytes_of_nonneg hh, BN.toBytes_of_nonneg hn, hb]
  rfl

theorem transcript_pos {g h n : Int} {ds : List Int} {b : Bytes} (ht : transcript g h n ds = .ok b) :
    0 ≤ g ∧ 0 ≤ h ∧ 0 ≤ n := by
  unfold transcript at ht
  simp only [Res.bind_eq_ok] at ht
  obtain ⟨_, h1, _, h2, _, h3, _⟩ := ht
  have : ∀ {a : Int} {b : Bytes}, BN.toBytes a = .ok b → 0 ≤ a := by
    intro a b h
    unfold BN.toBytes at h
    split at h
    · cases h
    · omega
  exact ⟨this h1, this h2, this h3⟩

/-- The oracle is defined for challenges of up to 129000 bits, and in range. -/
theorem oracle_ok (H : Hashes) (x : Bytes) {len : Nat} (hl : len ≤ 129000) :
    ∃ c, Ctx.randomOracleSha512 H x (2 ^ len) = .ok c ∧ 0 ≤ c ∧ c < 2 ^ len := by
  apply (C30_oracle_range H.sha512 512 (by omega) x (2 ^ len)).1 (by positivity)
  have : BN.bitLength (2 ^ len) = len + 1 := by
    unfold BN.bitLength
    rw [Int.natAbs_pow]
    exact Nat.size_pow
  unfold Ctx.iterCount
  rw [this]
  omega

theorem oracle_nonneg {H : Hashes} {x : Bytes} {len : Nat} {c : Int}
    (h : Ctx.randomOracleSha512 H x (2 ^ len) = .ok c) : 0 ≤ c ∧ c < 2 ^ len := by
  have h1 := C30_oracle_range H.sha512 512 (by omega) x (2 ^ len)
  by_cases hi : Ctx.iterCount 512 (2 ^ len) * 512 < 130048
  · obtain ⟨v, hv, h2⟩ := h1.1 (by positivity) hi
    unfold Ctx.randomOracleSha512 at h
    rw [hv] at h
    cases h
    exact h2
  · have := h1.2.1 (by omega)
    unfold Ctx.randomOracleSha512 at h
    rw [this] at h
    cases h

theorem dummies_total {h n zk : Int} (hn : 0 < n) (hz : 0 ≤ 1 + zk) :
    ∀ ws : List Nat, ∃ ds, dummies h n zk ws = .ok ds
  | [] => ⟨[], rfl⟩
  | w :: ws => by
    obtain ⟨ds, hds⟩ := dummies_total (h := h) hn hz ws
    have hb : 0 < n * 2 ^ (1 + zk).toNat := by positivity
    have hr0 : 0 ≤ (w : Int) % (n * 2 ^ (1 + zk).toNat) := Int.emod_nonneg _ (by omega)
    refine ⟨((w : Int) % (n * 2 ^ (1 + zk).toNat),
      h ^ ((w : Int) % (n * 2 ^ (1 + zk).toNat)).toNat % n) :: ds, ?_⟩
    unfold dummies
    simp only [BN.lshift]
    rw [if_neg (by omega), Res.ok_bind, Ctx.randLessThan, if_neg (by omega), Res.ok_bind,
      BN.modExp, if_neg (by omega), if_neg (by omega), Res.ok_bind, hds, Res.ok_bind]
    rfl

end PJC.Ped
