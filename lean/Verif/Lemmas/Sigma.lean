import Verif.Model.DyVrf
import Verif.Lemmas.Ec
import Verif.Lemmas.CamenischShoup
import Verif.Props.Pedersen
/-
Facts shared by the sigma protocols (VRF and oblivious signature): shifts, vectors of commitments,
recomputation of first messages.
-/
namespace PJC
open Ped

theorem lshift64_ok (a : Int) {k : Int} (h0 : 0 ≤ k) (h1 : k < 2 ^ 31) :
    lshift64 a k = .ok (a * 2 ^ k.toNat) := by
  have : (k + 2 ^ 31) % 2 ^ 32 - 2 ^ 31 = k := by omega
  unfold lshift64 int64
  rw [if_pos (by omega), Res.ok_bind, this, BN.lshift, if_neg (by omega)]

theorem randLessThan_ok (w : Nat) {b : Int} (hb : 0 < b) :
    ∃ r, Ctx.randLessThan w b = .ok r ∧ 0 ≤ r ∧ r < b :=
  ⟨(w : Int) % b, by simp [Ctx.randLessThan, not_le.2 hb], Int.emod_nonneg _ (by omega),
    Int.emod_lt_of_pos _ hb⟩

theorem toBytes_parse {a : Int} (h : 0 ≤ a) :
    ∃ bs, BN.toBytes a = .ok bs ∧ BN.ofBytes bs = a :=
  ⟨BN.natToBytes a.toNat, BN.toBytes_of_nonneg h, by
    rw [BN.ofBytes_natToBytes, Int.toNat_of_nonneg h]⟩

theorem toBytes_eq_ok {a : Int} {bs : Bytes} (h : BN.toBytes a = .ok bs) :
    0 ≤ a ∧ BN.ofBytes bs = a := by
  unfold BN.toBytes at h
  split at h
  · cases h
  · rename_i hn
    cases h
    exact ⟨by omega, by rw [BN.ofBytes_natToBytes, Int.toNat_of_nonneg (by omega)]⟩

theorem mapM_eq_map {α β : Type} {f : α → Res β} {g : α → β} : ∀ {l : List α},
    (∀ a ∈ l, f a = .ok (g a)) → l.mapM f = .ok (l.map g)
  | [], _ => rfl
  | a :: l, h => by
    rw [List.mapM_cons, h a (by simp), Res.ok_bind, mapM_eq_map (fun x hx => h x (by simp [hx]))]
    rfl

theorem gcd_emod_left (a n : Int) : Int.gcd (a % n) n = Int.gcd a n := by
  rw [Int.gcd_emod]

theorem gcd_pow_left {a n : Int} (h : Int.gcd a n = 1) (k : Nat) : Int.gcd (a ^ k) n = 1 :=
  Int.isCoprime_iff_gcd_eq_one.1 (Int.isCoprime_iff_gcd_eq_one.2 h).pow_left

theorem gcd_mul_left' {a b n : Int} (ha : Int.gcd a n = 1) (hb : Int.gcd b n = 1) :
    Int.gcd (a * b) n = 1 :=
  Int.isCoprime_iff_gcd_eq_one.1
    ((Int.isCoprime_iff_gcd_eq_one.2 ha).mul_left (Int.isCoprime_iff_gcd_eq_one.2 hb))

/-- Dividing `D * C^c` by the power gives back `D`: how a verifier recomputes a first message. -/
theorem recover {n C : Int} (hn : 0 < n) (hu : Int.gcd C n = 1) (c : Nat) :
    ∃ i, BN.modInverse (C ^ c % n) n = .ok i ∧ 0 ≤ i ∧
      ∀ D M : Int, M ≡ D * C ^ c [ZMOD n] → (i * M) % n = D % n ∧ (M * i) % n = D % n := by
  have hg : Int.gcd (C ^ c % n) n = 1 := by rw [gcd_emod_left]; exact gcd_pow_left hu c
  obtain ⟨h1, h2, _⟩ := BN.inv_spec hn hg
  refine ⟨BN.inv (C ^ c % n) n, BN.modInverse_ok hn hg, h2, ?_⟩
  intro D M hM
  have h3 : C ^ c * BN.inv (C ^ c % n) n ≡ 1 [ZMOD n] :=
    ((Int.mod_modEq (C ^ c) n).symm.mul_right _).trans h1
  have h4 : BN.inv (C ^ c % n) n * M ≡ D [ZMOD n] := by
    calc BN.inv (C ^ c % n) n * M ≡ BN.inv (C ^ c % n) n * (D * C ^ c) [ZMOD n] := hM.mul_left _
      _ = D * (C ^ c * BN.inv (C ^ c % n) n) := by ring
      _ ≡ D * 1 [ZMOD n] := h3.mul_left _
      _ = D := mul_one D
  exact ⟨h4, by rw [mul_comm]; exact h4⟩

/-- What a recomputed first message says about an arbitrary accepted proof. -/
theorem recover_sound {n C M i d : Int} {c : Nat} (hi : BN.modInverse (C ^ c % n) n = .ok i)
    (hd : d = (i * M) % n) : M ≡ d * C ^ c [ZMOD n] := by
  obtain ⟨hn, _, h1, _, _⟩ := BN.modInverse_eq_ok hi
  have h3 : C ^ c * i ≡ 1 [ZMOD n] := ((Int.mod_modEq (C ^ c) n).symm.mul_right _).trans h1
  have h4 : d ≡ i * M [ZMOD n] := by rw [hd]; exact Int.mod_modEq _ _
  calc M = 1 * M := (one_mul M).symm
    _ ≡ (C ^ c * i) * M [ZMOD n] := (h3.symm.mul_right M)
    _ = (i * M) * C ^ c := by ring
    _ ≡ d * C ^ c [ZMOD n] := h4.symm.mul_right _

theorem modExp_ok {a e m : Int} (he : 0 ≤ e) (hm : m ≠ 0) :
    BN.modExp a e m = .ok (a ^ e.toNat % m) := by
  rw [BN.modExp, if_neg (by omega), if_neg hm]

theorem modMul_ok {a b m : Int} (hm : m ≠ 0) : BN.modMul a b m = .ok (a * b % m) := by
  rw [BN.modMul, BN.mod, if_neg hm]

theorem getElem?_getD {α : Type} {l : List α} {i : Nat} (a : α) (h : i < l.length) :
    l[i]? = some (l.getD i a) := by
  simp [List.getD_eq_getElem?_getD, h]

theorem getElem_getD {α : Type} {l : List α} {i : Nat} (a : α) (h : i < l.length) :
    l[i] = l.getD i a := by
  simp [List.getD_eq_getElem?_getD, h]

namespace Ped

theorem prodOfPowers_unit {n : Int} : ∀ {gs ms : List Int}, (∀ g ∈ gs, Int.gcd g n = 1) →
    Int.gcd (Props.prodOfPowers gs ms) n = 1
  | [], ms, _ => by simp [Props.prodOfPowers]
  | g :: gs, [], _ => by simp [Props.prodOfPowers]
  | g :: gs, m :: ms, h => by
    have ih := prodOfPowers_unit (gs := gs) (ms := ms) (fun x hx => h x (by simp [hx]))
    unfold Props.prodOfPowers at ih ⊢
    simp only [List.zipWith_cons_cons, List.prod_cons]
    exact gcd_mul_left' (gcd_pow_left (h g (by simp)) _) ih

theorem commitment_unit {gs : List Int} {h n : Int} (hgs : ∀ g ∈ gs, Int.gcd g n = 1)
    (hh : Int.gcd h n = 1) (ms : List Int) (r : Int) : Int.gcd (commitment gs h n ms r) n = 1 := by
  unfold commitment
  rw [gcd_emod_left]
  exact gcd_mul_left' (prodOfPowers_unit hgs) (gcd_pow_left hh _)

theorem commitment_nonneg {gs : List Int} {h n : Int} (hn : 0 < n) (ms : List Int) (r : Int) :
    0 ≤ commitment gs h n ms r := Int.emod_nonneg _ (by omega)

theorem commitment_emod {gs : List Int} {h n : Int} (ms : List Int) (r : Int) :
    commitment gs h n ms r % n = commitment gs h n ms r := by
  unfold commitment
  exact Int.emod_emod_of_dvd _ (dvd_refl n)

/-- A commitment to `d + c * m` is the product of a commitment and a power of one. -/
theorem commitment_linear {gs : List Int} {h n : Int} {ds ms : List Int} {rd r c : Int}
    (hc : 0 ≤ c) (vd : Valid gs ds rd) (v : Valid gs ms r) :
    commitment gs h n (addVec ds (ms.map (c * ·))) (rd + c * r) ≡
      commitment gs h n ds rd * commitment gs h n ms r ^ c.toNat [ZMOD n] := by
  have v2 : Valid gs (ms.map (c * ·)) (c * r) := by
    refine ⟨by simpa using v.len, ?_, mul_nonneg hc v.rand⟩
    intro m hm
    obtain ⟨x, hx, rfl⟩ := List.mem_map.1 hm
    exact mul_nonneg hc (v.msgs x hx)
  rw [commitment_add vd v2, commitment_mul hc v]
  exact (Int.mod_modEq _ n).trans ((Int.mod_modEq _ n).mul_left _)

theorem Valid.linear {gs ds ms : List Int} {rd r c : Int} (hc : 0 ≤ c) (vd : Valid gs ds rd)
    (v : Valid gs ms r) : Valid gs (addVec ds (ms.map (c * ·))) (rd + c * r) := by
  refine ⟨?_, ?_, add_nonneg vd.rand (mul_nonneg hc v.rand)⟩
  · rw [addVec_length, List.length_map]
    exact max_le vd.len v.len
  · apply addVec_nonneg vd.msgs
    intro m hm
    obtain ⟨x, hx, rfl⟩ := List.mem_map.1 hm
    exact mul_nonneg hc (v.msgs x hx)

theorem Valid.add {gs ds ms : List Int} {rd r : Int} (vd : Valid gs ds rd)
    (v : Valid gs ms r) : Valid gs (addVec ds ms) (rd + r) := by
  refine ⟨?_, addVec_nonneg vd.msgs v.msgs, add_nonneg vd.rand v.rand⟩
  rw [addVec_length]
  exact max_le vd.len v.len

theorem addVec_getD : ∀ (xs ys : List Int) (i : Nat),
    (addVec xs ys).getD i 0 = xs.getD i 0 + ys.getD i 0
  | [], ys, i => by simp [addVec]
  | x :: xs, [], i => by simp [addVec]
  | x :: xs, y :: ys, 0 => by simp [addVec]
  | x :: xs, y :: ys, i + 1 => by
    have := addVec_getD xs ys i
    simpa [addVec] using this

theorem ext_getD {xs ys : List Int} (hl : xs.length = ys.length)
    (h : ∀ i < xs.length, xs.getD i 0 = ys.getD i 0) : xs = ys := by
  apply List.ext_getElem hl
  intro i h1 h2
  have := h i h1
  simpa [List.getD_eq_getElem?_getD, h1, h2] using this

theorem getD_map_mul (c : Int) (xs : List Int) (i : Nat) :
    (xs.map (c * ·)).getD i 0 = c * xs.getD i 0 := by
  simp only [List.getD_eq_getElem?_getD, List.getElem?_map]
  cases xs[i]? <;> simp

theorem getD_replicate {n i : Nat} (h : i < n) (x : Int) : (List.replicate n x).getD i 0 = x := by
  simp [List.getD_eq_getElem?_getD, h]

end Ped

theorem ecPoints_round {G : Type} [AddCommGroup G] [DecidableEq G] {E : EcGroup G}
    (hE : E.Lawful) : ∀ {Ps : List G}, (∀ P ∈ Ps, P ≠ 0) →
    ∃ bs, ecPointVectorToProto E Ps = .ok bs ∧ parseECPointVectorProto E bs = .ok Ps
  | [], _ => ⟨[], rfl, rfl⟩
  | P :: Ps, h => by
    obtain ⟨bs, h1, h2⟩ := ecPoints_round hE (Ps := Ps) (fun x hx => h x (by simp [hx]))
    obtain ⟨b, h3, h4⟩ := hE.toBytes_ne (h P (by simp))
    unfold ecPointVectorToProto at h1 ⊢
    unfold parseECPointVectorProto at h2 ⊢
    refine ⟨b :: bs, ?_, ?_⟩
    · rw [List.mapM_cons, h3, Res.ok_bind, h1]; rfl
    · rw [List.mapM_cons, h4, Res.ok_bind, h2]; rfl

theorem ecPoints_ok {G : Type} [AddCommGroup G] [DecidableEq G] {E : EcGroup G}
    (hE : E.Lawful) : ∀ {Ps : List G} {bs : List Bytes}, ecPointVectorToProto E Ps = .ok bs →
    (∀ P ∈ Ps, P ≠ 0) ∧ parseECPointVectorProto E bs = .ok Ps := by
  intro Ps bs h
  by_cases hz : ∀ P ∈ Ps, P ≠ 0
  · obtain ⟨bs', h1, h2⟩ := ecPoints_round hE hz
    rw [h] at h1
    cases h1
    exact ⟨hz, h2⟩
  · exfalso
    push Not at hz
    obtain ⟨P, hP, rfl⟩ := hz
    unfold ecPointVectorToProto at h
    have h2 := Cs.mapM_ok_iff.1 h
    obtain ⟨i, hi, hP⟩ := List.mem_iff_getElem.1 hP
    have hb := h2.get hi (by rw [← h2.length_eq]; exact hi)
    simp only [List.get_eq_getElem, hP] at hb
    rw [hE.toBytes_zero] at hb
    cases hb

/-- Serializing points fails only with INTERNAL, and only when infinity is among them. -/
theorem ecPoints_cases {G : Type} [AddCommGroup G] [DecidableEq G] {E : EcGroup G}
    (hE : E.Lawful) (Ps : List G) :
    (∃ bs, ecPointVectorToProto E Ps = .ok bs) ∨
      ((0 : G) ∈ Ps ∧ ecPointVectorToProto E Ps = .err .internal) := by
  induction Ps with
  | nil => exact .inl ⟨[], rfl⟩
  | cons P Ps ih =>
    unfold ecPointVectorToProto at ih ⊢
    rw [List.mapM_cons]
    by_cases hP : P = 0
    · subst hP
      right
      rw [hE.toBytes_zero]
      exact ⟨by simp, rfl⟩
    · obtain ⟨b, h3, _⟩ := hE.toBytes_ne hP
      rw [h3, Res.ok_bind]
      rcases ih with ⟨bs, h⟩ | ⟨h0, h⟩
      · left
        exact ⟨b :: bs, by rw [h]; rfl⟩
      · right
        exact ⟨by simp [h0], by rw [h]; rfl⟩

end PJC
