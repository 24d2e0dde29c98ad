import Verif.Lemmas.Close
import Verif.Props.BbBlind
import Verif.Props.BbZk
set_option linter.unusedSectionVars false
/-
The request of the oblivious signature, written with all secrets in exponents that are masked by
draws: commitments as powers of one base, ciphertexts as fresh encryptions.
-/
namespace PJC.Bb
open PJC.DJ PJC.Props PJC.Stat PJC.Ped

/-! ### Commitments as powers of `h` -/

theorem prodOfPowers_pow {h n : Int} : ∀ (cs es : List Int),
    (∀ c ∈ cs, ∃ k : Nat, c ≡ h ^ k [ZMOD n]) → ∃ X : Nat, prodOfPowers cs es ≡ h ^ X [ZMOD n]
  | [], es, _ => ⟨0, by simp [prodOfPowers, Int.ModEq.refl]⟩
  | c :: cs, [], _ => ⟨0, by simp [prodOfPowers, Int.ModEq.refl]⟩
  | c :: cs, e :: es, hc => by
    obtain ⟨X, hX⟩ := prodOfPowers_pow cs es (fun c hc' => hc c (by simp [hc']))
    obtain ⟨k, hk⟩ := hc c (by simp)
    refine ⟨k * e.toNat + X, ?_⟩
    unfold prodOfPowers at hX ⊢
    simp only [List.zipWith_cons_cons, List.prod_cons]
    rw [pow_add, pow_mul]
    exact (hk.pow _).mul hX

theorem commitment_pow {gs : List Int} {h n : Int} (hgs : ∀ c ∈ gs, ∃ k : Nat, c ≡ h ^ k [ZMOD n])
    (ms : List Int) : ∃ X : Nat, ∀ r : Nat, commitment gs h n ms r = h ^ (r + X) % n := by
  obtain ⟨X, hX⟩ := prodOfPowers_pow gs ms hgs
  refine ⟨X, fun r => ?_⟩
  unfold commitment
  rw [Int.toNat_natCast, pow_add, mul_comm]
  exact hX.mul_left _

theorem accP_pow {gs : List Int} {h n : Int} {cs : List Int} (es : List Int)
    (hcs : ∀ c ∈ cs, ∃ k : Nat, c ≡ h ^ k [ZMOD n]) : ∃ X : Nat, ∀ r : Nat,
    accP n (commitment gs h n (List.replicate gs.length 0) r) cs es = h ^ (r + X) % n := by
  obtain ⟨X, hX⟩ := prodOfPowers_pow cs es hcs
  refine ⟨X, fun r => ?_⟩
  rw [← accP_emod (commitment_emod _ _)]
  refine accP_modEq.trans ?_
  rw [pow_add]
  refine Int.ModEq.mul ?_ hX
  unfold commitment
  rw [prodOfPowers_zeros, one_mul, Int.toNat_natCast]
  exact Int.mod_modEq _ _

theorem pow_mod_of_residue {h n : Int} {M a b : Nat} (hM : h ^ M ≡ 1 [ZMOD n]) (hab : a % M = b % M) :
    h ^ a % n = h ^ b % n := by
  have key : ∀ a : Nat, h ^ a ≡ h ^ (a % M) [ZMOD n] := by
    intro a
    conv_lhs => rw [← Nat.div_add_mod a M, pow_add, pow_mul]
    have := (hM.pow (a / M)).mul_right (h ^ (a % M))
    rwa [one_pow, one_mul] at this
  exact (key a).trans (by rw [hab]; exact (key b).symm)

/-! ### Ciphertexts as encryptions -/

theorem encP_ext {M N g : Int} {ys ms ms' : List Int} {r : Int}
    (h : ∀ i < ys.length, ms.getD i 0 = ms'.getD i 0) : encP M N g ys ms r = encP M N g ys ms' r := by
  unfold encP
  congr 1
  apply List.map_congr_left
  intro i hi
  rw [h i (List.mem_range.1 hi)]

theorem addP_encP {M N g : Int} {ys ms ms' zs : List Int} {r r' : Int} (hr : 0 ≤ r) (hr' : 0 ≤ r')
    (hm : ∀ i, 0 ≤ ms.getD i 0) (hm' : ∀ i, 0 ≤ ms'.getD i 0)
    (hz : ∀ i < ys.length, zs.getD i 0 = ms.getD i 0 + ms'.getD i 0) :
    addP M (encP M N g ys ms r) (encP M N g ys ms' r') = encP M N g ys zs (r + r') := by
  unfold addP encP
  dsimp only
  congr 1
  · rw [Int.toNat_add hr hr', pow_add]
    exact (Int.mul_emod _ _ _).symm
  · apply List.ext_getElem
    · simp
    · intro i h1 h2
      have hi : i < ys.length := by simpa using h2
      simp only [List.getElem_zipWith, List.getElem_map, List.getElem_range]
      rw [← Int.mul_emod, hz i hi, Int.toNat_add hr hr', Int.toNat_add (hm i) (hm' i), pow_add, pow_add]
      congr 1
      ring

theorem mulP_encP {M N g : Int} {ys ms zs : List Int} {r k : Int} (hr : 0 ≤ r) (hk : 0 ≤ k)
    (hm : ∀ i, 0 ≤ ms.getD i 0) (hz : ∀ i < ys.length, zs.getD i 0 = ms.getD i 0 * k) :
    mulP M (encP M N g ys ms r) k = encP M N g ys zs (r * k) := by
  unfold mulP encP
  dsimp only
  congr 1
  · rw [Int.toNat_mul hr hk, pow_mul]
    exact (Int.mod_modEq _ _).pow _
  · rw [List.map_map]
    apply List.map_congr_left
    intro i hi
    have hi := List.mem_range.1 hi
    simp only [Function.comp]
    rw [hz i hi, Int.toNat_mul hr hk, Int.toNat_mul (hm i) hk, pow_mul, pow_mul, ← mul_pow]
    exact (Int.mod_modEq _ _).pow _

/-- The randomness of ciphertext `i` of a request, beyond what is drawn for it. -/
def extraRand (as gammas : List Int) (dK dY : Nat → Int) (start : Nat) : Nat → Int
  | 0 => 0
  | t + 1 => extraRand as gammas dK dY start t + dK t * as.getD (start + t) 0 +
      dY t * gammas.getD (start + t) 0

theorem foldl_encP {M N g : Int} {ys ms as gammas : List Int} {k y : Int} (hk : 0 ≤ k) (hy : 0 ≤ y)
    {N' : Nat} {dK dY : Nat → Int} (hdk : DrawsOk N' ys.length dK) (hdy : DrawsOk N' ys.length dY)
    (ha : ∀ x ∈ as, 0 ≤ x) (hg : ∀ x ∈ gammas, 0 ≤ x) (hm : ∀ i, 0 ≤ ms.getD i 0) {r : Int}
    (hr : 0 ≤ r) (start : Nat) : ∀ t ≤ ys.length, 0 ≤ extraRand as gammas dK dY start t ∧
      ∀ zs : List Int, (∀ j < ys.length, zs.getD j 0 = ms.getD j 0 + (if j < t then
        k * as.getD (start + j) 0 + y * gammas.getD (start + j) 0 else 0)) →
      (List.range t).foldl (homStepP M as gammas (keyCts M N g ys k dK) (keyCts M N g ys y dY) start)
        (encP M N g ys ms r) = encP M N g ys zs (r + extraRand as gammas dK dY start t) := by
  intro t
  induction t with
  | zero =>
    intro _
    refine ⟨le_refl _, fun zs hz => ?_⟩
    simp only [List.range_zero, List.foldl_nil, extraRand, add_zero]
    exact encP_ext fun i hi => by rw [hz i hi]; simp
  | succ t ih =>
    intro ht
    obtain ⟨e0, ih⟩ := ih (by omega)
    have a0 := getD_nonneg ha (start + t)
    have g0 := getD_nonneg hg (start + t)
    have k0 := (hdk t (by omega)).1
    have y0 := (hdy t (by omega)).1
    have p1 := mul_nonneg k0 a0
    have p2 := mul_nonneg y0 g0
    refine ⟨by simp only [extraRand]; omega, fun zs hz => ?_⟩
    set z1 : List Int := (List.range ys.length).map fun j => ms.getD j 0 + (if j < t then
        k * as.getD (start + j) 0 + y * gammas.getD (start + j) 0 else 0) with hz1
    have hz1g : ∀ j < ys.length, z1.getD j 0 = ms.getD j 0 + (if j < t then
        k * as.getD (start + j) 0 + y * gammas.getD (start + j) 0 else 0) :=
      fun j hj => getD_map_range _ _ hj
    have n1 : ∀ j, 0 ≤ z1.getD j 0 := by
      intro j
      by_cases hj : j < ys.length
      · rw [hz1g j hj]
        have b1 := mul_nonneg hk (getD_nonneg ha (start + j))
        have b2 := mul_nonneg hy (getD_nonneg hg (start + j))
        have := hm j
        split <;> omega
      · rw [List.getD_eq_default _ _ (by simp [z1]; omega)]
    have sl : ∀ x : Int, 0 ≤ x → ∀ j, 0 ≤ (slot ys.length t x).getD j 0 :=
      fun x hx j => getD_nonneg (slot_nonneg hx) j
    have sg : ∀ (x : Int) (j : Nat), (slot ys.length t x).getD j 0 = if j = t then x else 0 :=
      fun x j => slot_getD x (by omega) j
    rw [List.range_succ, List.foldl_append, List.foldl_cons, List.foldl_nil, ih z1 hz1g]
    unfold homStepP keyCts
    rw [getD_map_range _ _ (by omega : t < ys.length), getD_map_range _ _ (by omega : t < ys.length)]
    rw [mulP_encP (zs := slot ys.length t (k * as.getD (start + t) 0)) k0 a0 (sl k hk)
        (fun i _ => by rw [sg, sg]; split <;> simp),
      mulP_encP (zs := slot ys.length t (y * gammas.getD (start + t) 0)) y0 g0 (sl y hy)
        (fun i _ => by rw [sg, sg]; split <;> simp)]
    set z2 : List Int := (List.range ys.length).map fun j => z1.getD j 0 +
      (slot ys.length t (k * as.getD (start + t) 0)).getD j 0 with hz2
    have hz2g : ∀ j < ys.length, z2.getD j 0 = z1.getD j 0 +
      (slot ys.length t (k * as.getD (start + t) 0)).getD j 0 := fun j hj => getD_map_range _ _ hj
    have n2 : ∀ j, 0 ≤ z2.getD j 0 := by
      intro j
      by_cases hj : j < ys.length
      · rw [hz2g j hj]
        exact add_nonneg (n1 j) (sl _ (mul_nonneg hk a0) j)
      · rw [List.getD_eq_default _ _ (by simp [z2]; omega)]
    rw [addP_encP (zs := z2) (by omega) p1 n1 (sl _ (mul_nonneg hk a0)) hz2g,
      addP_encP (zs := zs) (by omega) p2 n2 (sl _ (mul_nonneg hy g0)) ?_]
    · congr 1
      simp only [extraRand]
      ring
    · intro j hj
      rw [hz j hj, hz2g j hj, hz1g j hj, sg, sg]
      rcases lt_trichotomy j t with h | h | h
      · simp [h, h.ne, (by omega : j < t + 1)]
      · subst h
        simp
        ring
      · rw [if_neg (by omega), if_neg (by omega), if_neg (by omega), if_neg (by omega)]
        ring

/-- Ciphertext `i` of a request is an encryption of the `i`-th batch of values. -/
theorem homCtP_encP {M N g : Int} {ys ms as gammas rands : List Int} {k y : Int} (hk : 0 ≤ k)
    (hy : 0 ≤ y) {N' : Nat} {dK dY : Nat → Int} (hdk : DrawsOk N' ys.length dK) (hdy : DrawsOk N' ys.length dY)
    (ha : ∀ x ∈ as, 0 ≤ x) (hg : ∀ x ∈ gammas, 0 ≤ x) (hm : ∀ x ∈ ms, 0 ≤ x)
    (hr : ∀ x ∈ rands, 0 ≤ x) {zs : List Int} (hz : zs.length = ms.length)
    (hzs : ∀ j, j < ms.length → zs.getD j 0 = ms.getD j 0 + (k * as.getD j 0 + y * gammas.getD j 0))
    (i : Nat) :
    0 ≤ extraRand as gammas dK dY (i * ys.length) (batchSize ys.length ms.length i) ∧
    homCtP M N g ys ms as gammas rands (keyCts M N g ys k dK) (keyCts M N g ys y dY) i =
      encP M N g ys ((zs.drop (i * ys.length)).take (batchSize ys.length ms.length i))
        (rands.getD i 0 +
          extraRand as gammas dK dY (i * ys.length) (batchSize ys.length ms.length i)) := by
  have hb : batchSize ys.length ms.length i ≤ ys.length := by unfold batchSize; omega
  obtain ⟨h1, h2⟩ := foldl_encP (M := M) (N := N) (g := g) hk hy hdk hdy ha hg
    (fun j => getD_nonneg (drop_take_nonneg hm (i * ys.length) (batchSize ys.length ms.length i)) j)
    (getD_nonneg hr i) (i * ys.length) _ hb
  refine ⟨h1, ?_⟩
  unfold homCtP
  apply h2
  intro j hj
  by_cases hjb : j < batchSize ys.length ms.length i
  · have : i * ys.length + j < ms.length := by unfold batchSize at hjb; omega
    rw [if_pos hjb, getD_drop_take hjb, getD_drop_take hjb, hzs _ this]
  · rw [if_neg hjb, List.getD_eq_default _ _ (by simp; omega),
      List.getD_eq_default _ _ (by simp; omega), add_zero]

theorem encP_residue {M N g : Int} {ys ms : List Int} {O : Nat} {r r' : Nat} (hg : g ^ O ≡ 1 [ZMOD M])
    (hys : ∀ y ∈ ys, y ^ O ≡ 1 [ZMOD M]) (h : r % O = r' % O) :
    encP M N g ys ms r = encP M N g ys ms r' := by
  unfold encP
  simp only [Int.toNat_natCast]
  rw [pow_mod_of_residue hg h]
  congr 1
  apply List.map_congr_left
  intro i hi
  have := pow_mod_of_residue (hys _ (getD_mem 0 (List.mem_range.1 hi))) h
  rw [Int.mul_emod, this, ← Int.mul_emod]

/-! ### The encrypted values -/

theorem blind_close {G : Type} [AddCommGroup G] [DecidableEq G] (v : BbSig G) {L : Nat}
    (hprime : v.group.order.Prime) (M : Fin L → Nat)
    (hMlt : ∀ i, M i < v.group.order * v.group.order) (hMnd : ∀ i, ¬ v.group.order ∣ M i) :
    Close (Box (blindBounds v L))
      (fun a => List.ofFn fun i : Fin L =>
        ((1 + a (.inl i) : Nat) : Int) * M i + a (.inr i) * v.group.order)
      (fun a => blindValues v a) ((L : ℚ) / 2 ^ (v.params.chal + v.params.sec).toNat) := by
  classical
  have hqN : 2 ≤ v.group.order := hprime.two_le
  set q := v.group.order with hqd
  set T := 2 ^ (v.params.chal + v.params.sec).toNat with hT
  have hTpos : 0 < T := by positivity
  have hres : ∀ (x : Nat) (i : Fin L), x < q - 1 → 1 ≤ (1 + x) * M i % q := by
    intro x i hx
    by_contra hcon
    have h0 : (1 + x) * M i % q = 0 := by omega
    rcases hprime.dvd_mul.1 (Nat.dvd_of_mod_eq_zero h0) with h1 | h1
    · have := Nat.le_of_dvd (by omega) h1
      omega
    · exact hMnd i h1
  have hquo : ∀ (x : Nat) (i : Fin L), x < q - 1 → (1 + x) * M i / q < q * q := by
    intro x i hx
    rw [Nat.div_lt_iff_lt_mul (by omega)]
    calc (1 + x) * M i < q * (q * q) := by
          calc (1 + x) * M i ≤ q * M i := Nat.mul_le_mul_right _ (by omega)
            _ < q * (q * q) := Nat.mul_lt_mul_of_pos_left (hMlt i) (by omega)
      _ = q * q * q := by ring
  have hpos : ∀ i, 0 < blindBounds v L i := by
    intro i
    rcases i with i | i
    · show 0 < q - 1; omega
    · show 0 < q * q * T
      have : 0 < q := by omega
      positivity
  have hbad : ∀ j : Fin L, ((Finset.range (blindBounds v L (.inr j))).filter
      fun x => q * q * T ≤ x + q * q).card * T ≤ 1 * blindBounds v L (.inr j) := by
    intro j
    have hsub : (Finset.range (blindBounds v L (.inr j))).filter
        (fun x => q * q * T ≤ x + q * q) ⊆ Finset.Ico (q * q * T - q * q) (q * q * T) := by
      intro x hx
      rw [Finset.mem_filter, Finset.mem_range] at hx
      have h1 : x < q * q * T := hx.1
      rw [Finset.mem_Ico]
      omega
    have h1 := Finset.card_le_card hsub
    rw [Nat.card_Ico] at h1
    have h2 : ((Finset.range (blindBounds v L (.inr j))).filter
        fun x => q * q * T ≤ x + q * q).card ≤ q * q := by omega
    calc _ ≤ q * q * T := Nat.mul_le_mul_right _ h2
      _ = _ := by rw [one_mul]; rfl
  obtain ⟨V, hV, hVm, hVc⟩ := exists_bad (blindBounds v L)
    (fun j : Fin L => .inr j) (fun _ (x : Nat) => q * q * T ≤ x + q * q) hpos 1 T hbad
  rw [Fintype.card_fin, mul_one] at hVc
  have hs : StatClose (Box (blindBounds v L))
      (fun a => List.ofFn fun i : Fin L => ((1 + a (.inl i) : Nat) : Int) * M i + a (.inr i) * q)
      (fun a => blindValues v a) L T := by
    refine close_of_inj (Box (blindBounds v L)) V _ _ (blindMap q M) _ _ hV hVc ?_ ?_ ?_
    · intro a ha hna
      have ha' := mem_box.1 ha
      rw [mem_box]
      intro i
      rcases i with i | i
      · have h1 : (1 + a (.inl i)) * M i % q < q := Nat.mod_lt _ (by omega)
        have h2 := hres (a (.inl i)) i (ha' (.inl i))
        show (1 + a (.inl i)) * M i % q - 1 < q - 1
        omega
      · have h1 := hquo (a (.inl i)) i (ha' (.inl i))
        have h2 := hVm a ha hna i
        show a (.inr i) + (1 + a (.inl i)) * M i / q < q * q * T
        omega
    · intro a ha b hb hab
      have ha' := mem_box.1 ha
      have hb' := mem_box.1 hb
      have hl : ∀ i, a (.inl i) = b (.inl i) := by
        intro i
        have e := congrFun hab (.inl i)
        have h1 := hres (a (.inl i)) i (ha' (.inl i))
        have h2 := hres (b (.inl i)) i (hb' (.inl i))
        have e' : (1 + a (.inl i)) * M i % q = (1 + b (.inl i)) * M i % q := by
          change (1 + a (.inl i)) * M i % q - 1 = (1 + b (.inl i)) * M i % q - 1 at e
          omega
        have hcop : Nat.Coprime q (M i) := (Nat.Prime.coprime_iff_not_dvd hprime).2 (hMnd i)
        have e2 : 1 + a (.inl i) ≡ 1 + b (.inl i) [MOD q] :=
          Nat.ModEq.cancel_right_of_coprime hcop e'
        have l1 : a (.inl i) < q - 1 := ha' (.inl i)
        have l2 : b (.inl i) < q - 1 := hb' (.inl i)
        have := Nat.ModEq.eq_of_lt_of_lt e2 (by omega) (by omega)
        omega
      funext i
      rcases i with i | i
      · exact hl i
      · have e := congrFun hab (.inr i)
        change a (.inr i) + (1 + a (.inl i)) * M i / q = b (.inr i) + (1 + b (.inl i)) * M i / q at e
        rw [hl i] at e
        omega
    · intro a ha _
      have ha' := mem_box.1 ha
      unfold blindValues
      congr 1
      funext i
      have h1 := hres (a (.inl i)) i (ha' (.inl i))
      have h2 := Nat.mod_add_div ((1 + a (.inl i)) * M i) q
      have e4 : 1 + blindMap q M a (.inl i) = (1 + a (.inl i)) * M i % q := by
        show 1 + ((1 + a (.inl i)) * M i % q - 1) = _
        omega
      rw [e4]
      show _ = _ + ((a (.inr i) + (1 + a (.inl i)) * M i / q : Nat) : Int) * (q : Int)
      have h3 : (((1 + a (.inl i)) * M i % q : Nat) : Int) +
          (q : Int) * (((1 + a (.inl i)) * M i / q : Nat) : Int) =
          ((1 + a (.inl i) : Nat) : Int) * M i := by exact_mod_cast h2
      rw [← h3]
      push_cast
      ring
  have := hs.close hTpos
  rw [hT] at this
  push_cast at this
  exact this

end PJC.Bb
