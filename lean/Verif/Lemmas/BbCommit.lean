import Verif.Lemmas.CsLin
set_option linter.unusedSectionVars false
/-
The commitments of the oblivious signature's request proof as plain functions, and their linearity
in the exponents.
-/
namespace PJC.Bb
open PJC.DJ PJC.Ped PJC.Props

/-- `dummy + challenge * value`, entry by entry. -/
def maskL (c : Int) (ds xs : List Int) : List Int := List.zipWith (fun d x => d + c * x) ds xs

theorem maskL_length {c : Int} {ds xs : List Int} (h : ds.length = xs.length) :
    (maskL c ds xs).length = xs.length := by
  simp [maskL, h]

theorem maskL_eq : ∀ {c : Int} {ds xs : List Int}, ds.length = xs.length →
    maskL c ds xs = addVec ds (xs.map (c * ·))
  | _, [], [], _ => rfl
  | _, [], _ :: _, h => by simp at h
  | _, _ :: _, [], h => by simp at h
  | c, d :: ds, x :: xs, h => by
    have := maskL_eq (c := c) (ds := ds) (xs := xs) (by simpa using h)
    unfold maskL at this ⊢
    simp [addVec, this]

theorem maskL_getD {c : Int} {ds xs : List Int} (h : ds.length = xs.length) (i : Nat) :
    (maskL c ds xs).getD i 0 = ds.getD i 0 + c * xs.getD i 0 := by
  rw [maskL_eq h, addVec_getD, getD_map_mul]

theorem maskL_nonneg {c : Int} (hc : 0 ≤ c) {ds xs : List Int} (hd : ∀ d ∈ ds, 0 ≤ d)
    (hx : ∀ x ∈ xs, 0 ≤ x) : ∀ z ∈ maskL c ds xs, 0 ≤ z := by
  intro z hz
  obtain ⟨i, hi, rfl⟩ := List.mem_iff_getElem.1 hz
  simp only [maskL, List.getElem_zipWith]
  exact add_nonneg (hd _ (List.getElem_mem _)) (mul_nonneg hc (hx _ (List.getElem_mem _)))

theorem commitment_mask {gs : List Int} {h n : Int} {ds xs : List Int} {rd r c : Int}
    (hc : 0 ≤ c) (hl : ds.length = xs.length) (vd : Valid gs ds rd) (v : Valid gs xs r) :
    commitment gs h n (maskL c ds xs) (rd + c * r) ≡
      commitment gs h n ds rd * commitment gs h n xs r ^ c.toNat [ZMOD n] := by
  rw [maskL_eq hl]
  exact commitment_linear hc vd v

/-! ### Commitments to one entry -/

theorem slot_length (n i : Nat) (x : Int) : (slot n i x).length = n := by simp [slot]

theorem slot_getD {n i : Nat} (x : Int) (hi : i < n) (j : Nat) :
    (slot n i x).getD j 0 = if j = i then x else 0 := by
  unfold slot
  rw [List.getD_eq_getElem?_getD, List.getElem?_set]
  by_cases h : i = j
  · subst h
    simp [hi]
  · rw [if_neg h, if_neg (fun e => h e.symm), List.getElem?_replicate]
    split <;> rfl

theorem slot_nonneg {n i : Nat} {x : Int} (hx : 0 ≤ x) : ∀ z ∈ slot n i x, 0 ≤ z := by
  intro z hz
  unfold slot at hz
  rcases List.mem_or_eq_of_mem_set hz with h | h
  · rw [List.eq_of_mem_replicate h]
  · rw [h]; exact hx

theorem slot_mask {n i : Nat} (hi : i < n) (c d x : Int) :
    maskL c (slot n i d) (slot n i x) = slot n i (d + c * x) := by
  apply ext_getD
  · rw [maskL_length (by simp [slot_length])]; simp [slot_length]
  · intro j _
    rw [maskL_getD (by simp [slot_length]), slot_getD _ hi, slot_getD _ hi, slot_getD _ hi]
    split <;> ring

theorem valid_slot {gs : List Int} {i : Nat} {x r : Int} (hx : 0 ≤ x) (hr : 0 ≤ r) :
    Valid gs (slot gs.length i x) r :=
  ⟨(slot_length _ _ _).le, slot_nonneg hx, hr⟩

theorem commitment_slot_mask {gs : List Int} {h n : Int} {i : Nat} (hi : i < gs.length)
    {d x rd r c : Int} (hc : 0 ≤ c) (hd : 0 ≤ d) (hx : 0 ≤ x) (hrd : 0 ≤ rd) (hr : 0 ≤ r) :
    commitment gs h n (slot gs.length i (d + c * x)) (rd + c * r) ≡
      commitment gs h n (slot gs.length i d) rd * commitment gs h n (slot gs.length i x) r ^ c.toNat
        [ZMOD n] := by
  rw [← slot_mask hi]
  exact commitment_mask hc (by simp [slot_length]) (valid_slot hd hrd) (valid_slot hx hr)

theorem prodOfPowers_zeros : ∀ (gs : List Int) (k : Nat),
    prodOfPowers gs (List.replicate k 0) = 1
  | [], k => by simp [prodOfPowers]
  | g :: gs, 0 => by simp [prodOfPowers]
  | g :: gs, k + 1 => by
    have := prodOfPowers_zeros gs k
    unfold prodOfPowers at this ⊢
    simp [List.replicate_succ, this]

theorem prodOfPowers_slot : ∀ (gs : List Int) (i : Nat) (x : Int), i < gs.length →
    prodOfPowers gs (slot gs.length i x) = gs.getD i 0 ^ x.toNat
  | [], i, x, h => by simp at h
  | g :: gs, 0, x, _ => by
    have := prodOfPowers_zeros gs gs.length
    unfold prodOfPowers slot at *
    simp [List.replicate_succ, this]
  | g :: gs, i + 1, x, h => by
    have := prodOfPowers_slot gs i x (by simpa using h)
    unfold prodOfPowers slot at *
    simpa [List.replicate_succ] using this

/-! ### Products of commitments -/

/-- What `accumulate` computes. -/
def accP (n acc : Int) (cs es : List Int) : Int :=
  (cs.zip es).foldl (fun acc x => acc * (x.1 ^ x.2.toNat % n) % n) acc

theorem accumulate_ok {ped : Pedersen} {gs : List Int} {h n : Int} (G : Good ped gs h n)
    (hn : 0 < n) {acc : Int} {cs es : List Int} (he : ∀ e ∈ es, 0 ≤ e) :
    accumulate ped acc cs es = .ok (accP n acc cs es) := by
  unfold accumulate accP
  refine (foldlM_inv (P := fun _ => True) trivial ?_).1
  intro acc _ x hx
  refine ⟨?_, trivial⟩
  have : 0 ≤ x.2 := he _ (List.of_mem_zip hx).2
  unfold Ped.multiply Ped.add
  rw [G.n_eq, modExp_ok this hn.ne', Res.ok_bind, modMul_ok hn.ne']

theorem accP_modEq {n : Int} : ∀ {cs es : List Int} {acc : Int},
    accP n acc cs es ≡ acc * prodOfPowers cs es [ZMOD n]
  | [], es, acc => by simp [accP, prodOfPowers, Int.ModEq.refl]
  | c :: cs, [], acc => by simp [accP, prodOfPowers, Int.ModEq.refl]
  | c :: cs, e :: es, acc => by
    have ih := accP_modEq (n := n) (cs := cs) (es := es) (acc := acc * (c ^ e.toNat % n) % n)
    unfold accP prodOfPowers at *
    simp only [List.zip_cons_cons, List.foldl_cons, List.zipWith_cons_cons, List.prod_cons]
    refine ih.trans ?_
    rw [← mul_assoc]
    refine Int.ModEq.mul_right _ ?_
    exact (Int.mod_modEq _ _).trans ((Int.mod_modEq _ _).mul_left _)

theorem accP_emod {n acc : Int} (h : acc % n = acc) : ∀ {cs es : List Int},
    accP n acc cs es % n = accP n acc cs es := by
  intro cs es
  unfold accP
  generalize cs.zip es = l
  induction l generalizing acc with
  | nil => exact h
  | cons x l ih =>
    rw [List.foldl_cons]
    exact ih (Int.emod_emod_of_dvd _ (dvd_refl n))

theorem accP_nonneg {n acc : Int} (hn : 0 < n) (h : acc % n = acc) {cs es : List Int} :
    0 ≤ accP n acc cs es := by
  rw [← accP_emod h]
  exact Int.emod_nonneg _ hn.ne'

theorem accP_unit {n acc : Int} (h : Int.gcd acc n = 1) {cs es : List Int}
    (hcs : ∀ c ∈ cs, Int.gcd c n = 1) : Int.gcd (accP n acc cs es) n = 1 := by
  rw [← gcd_emod_left, accP_modEq (n := n), gcd_emod_left]
  exact gcd_mul_left' h (prodOfPowers_unit hcs)

theorem accP_mask {n accD accX accZ c : Int} (hc : 0 ≤ c) {cs ds xs : List Int}
    (hl : ds.length = xs.length) (hd : ∀ d ∈ ds, 0 ≤ d) (hx : ∀ x ∈ xs, 0 ≤ x)
    (hacc : accZ ≡ accD * accX ^ c.toNat [ZMOD n]) :
    accP n accZ cs (maskL c ds xs) ≡ accP n accD cs ds * accP n accX cs xs ^ c.toNat [ZMOD n] := by
  have h1 : prodOfPowers cs (maskL c ds xs) = prodOfPowers cs ds * prodOfPowers cs xs ^ c.toNat := by
    rw [maskL_eq hl, prodOfPowers_add _ _ _ hd, prodOfPowers_mul hc _ _ hx]
    intro y hy
    obtain ⟨x, hx', rfl⟩ := List.mem_map.1 hy
    exact mul_nonneg hc (hx x hx')
  refine accP_modEq.trans ?_
  rw [h1]
  refine (hacc.mul_right _).trans ?_
  refine Int.ModEq.trans ?_ (accP_modEq.symm.mul (accP_modEq.symm.pow _))
  apply meq_of_eq
  rw [mul_pow]; ring

theorem prodOfPowers_congr {n : Int} {cs cs' : List Int}
    (h : List.Forall₂ (fun a b => a ≡ b [ZMOD n]) cs cs') (es : List Int) :
    prodOfPowers cs es ≡ prodOfPowers cs' es [ZMOD n] := by
  induction h generalizing es with
  | nil => exact Int.ModEq.refl _
  | cons hab _ ih =>
    cases es with
    | nil => exact Int.ModEq.refl _
    | cons e es =>
      have := ih es
      unfold prodOfPowers at *
      simp only [List.zipWith_cons_cons, List.prod_cons]
      exact (hab.pow _).mul this

/-- The product over `i` of `(gs_i^as_i h^os_i)^ms_i`. -/
theorem prod_slots (h : Int) : ∀ (gs as os ms : List Int), as.length ≤ gs.length →
    os.length = as.length → ms.length = as.length → (∀ a ∈ as, 0 ≤ a) → (∀ o ∈ os, 0 ≤ o) →
    (∀ m ∈ ms, 0 ≤ m) →
    prodOfPowers (List.zipWith (fun g (x : Int × Int) => g ^ x.1.toNat * h ^ x.2.toNat) gs
      (as.zip os)) ms =
    prodOfPowers gs (List.zipWith (· * ·) ms as) *
      h ^ (List.zipWith (· * ·) os ms).sum.toNat := by
  intro gs as
  induction as generalizing gs with
  | nil =>
    intro os ms _ h2 h3 _ _ _
    have : os = [] := List.eq_nil_of_length_eq_zero (by simpa using h2)
    have : ms = [] := List.eq_nil_of_length_eq_zero (by simpa using h3)
    subst_vars
    simp [prodOfPowers]
  | cons a as ih =>
    intro os ms h1 h2 h3 ha ho hm
    obtain ⟨g, gs, rfl⟩ : ∃ g gs', gs = g :: gs' := by
      cases gs with
      | nil => simp at h1
      | cons g gs => exact ⟨_, _, rfl⟩
    obtain ⟨o, os, rfl⟩ : ∃ g gs', os = g :: gs' := by
      cases os with
      | nil => simp at h2
      | cons g gs => exact ⟨_, _, rfl⟩
    obtain ⟨m, ms, rfl⟩ : ∃ g gs', ms = g :: gs' := by
      cases ms with
      | nil => simp at h3
      | cons g gs => exact ⟨_, _, rfl⟩
    have := ih gs os ms (by simpa using h1) (by simpa using h2) (by simpa using h3)
      (fun x hx => ha x (by simp [hx])) (fun x hx => ho x (by simp [hx]))
      (fun x hx => hm x (by simp [hx]))
    have a0 := ha a (by simp)
    have o0 := ho o (by simp)
    have m0 := hm m (by simp)
    have s0 : 0 ≤ (List.zipWith (· * ·) os ms).sum := by
      apply List.sum_nonneg
      intro z hz
      obtain ⟨i, hi, rfl⟩ := List.mem_iff_getElem.1 hz
      simp only [List.getElem_zipWith]
      exact mul_nonneg (ho _ (by simp)) (hm _ (by simp))
    unfold prodOfPowers at *
    simp only [List.zip_cons_cons, List.zipWith_cons_cons, List.prod_cons, List.sum_cons, this]
    rw [Int.toNat_add (mul_nonneg o0 m0) s0, Int.toNat_mul o0 m0, Int.toNat_mul m0 a0, pow_add,
      mul_pow, ← pow_mul, ← pow_mul, mul_comm a.toNat]
    ring

/-- The commitment to `as[i]` in slot `i`. -/
def comAtP (gs : List Int) (h n : Int) (as os : List Int) (i : Nat) : Int :=
  commitment gs h n (slot gs.length i (as.getD i 0)) (os.getD i 0)

def comAsP (gs : List Int) (h n : Int) (as os : List Int) (k : Nat) : List Int :=
  (List.range k).map (comAtP gs h n as os)

theorem comAsP_forall {gs : List Int} {h n : Int} {as os : List Int} (h1 : as.length ≤ gs.length)
    (h2 : os.length = as.length) :
    List.Forall₂ (fun a b => a ≡ b [ZMOD n]) (comAsP gs h n as os as.length)
      (List.zipWith (fun g (x : Int × Int) => g ^ x.1.toNat * h ^ x.2.toNat) gs (as.zip os)) := by
  rw [List.forall₂_iff_get]
  constructor
  · simp [comAsP, h2]; omega
  · intro i hi hi'
    have hi1 : i < as.length := by simpa [comAsP] using hi
    have hi2 : i < gs.length := by omega
    have hi3 : i < os.length := by omega
    simp only [List.get_eq_getElem, comAsP, List.getElem_map, List.getElem_range, comAtP,
      List.getElem_zipWith, List.getElem_zip]
    unfold commitment
    rw [prodOfPowers_slot _ _ _ hi2, List.getD_eq_getElem _ _ hi1, List.getD_eq_getElem _ _ hi2,
      List.getD_eq_getElem _ _ hi3]
    exact Int.mod_modEq _ _

/-- Products of the one-entry commitments commit to the products of the entries. -/
theorem accP_products {gs : List Int} {h n : Int} {as os ms : List Int} {r : Int}
    (h1 : as.length ≤ gs.length) (h2 : os.length = as.length) (h3 : ms.length = as.length)
    (ha : ∀ a ∈ as, 0 ≤ a) (ho : ∀ o ∈ os, 0 ≤ o) (hm : ∀ m ∈ ms, 0 ≤ m) (hr : 0 ≤ r) :
    accP n (commitment gs h n (List.replicate gs.length 0) r) (comAsP gs h n as os as.length) ms ≡
      commitment gs h n (List.zipWith (· * ·) ms as)
        (r + (List.zipWith (· * ·) os ms).sum) [ZMOD n] := by
  refine accP_modEq.trans ?_
  refine ((prodOfPowers_congr (comAsP_forall h1 h2) ms).mul_left _).trans ?_
  rw [prod_slots h gs as os ms h1 h2 h3 ha ho hm]
  have s0 : 0 ≤ (List.zipWith (· * ·) os ms).sum := by
    apply List.sum_nonneg
    intro z hz
    obtain ⟨i, hi, rfl⟩ := List.mem_iff_getElem.1 hz
    simp only [List.getElem_zipWith]
    exact mul_nonneg (ho _ (by simp)) (hm _ (by simp))
  unfold commitment
  rw [prodOfPowers_zeros]
  refine ((Int.mod_modEq _ _).mul_right _).trans (Int.ModEq.trans ?_ (Int.mod_modEq _ _).symm)
  apply meq_of_eq
  rw [Int.toNat_add hr s0, pow_add]
  ring

theorem comAtP_unit {gs : List Int} {h n : Int} (hgs : ∀ g ∈ gs, Int.gcd g n = 1)
    (hh : Int.gcd h n = 1) (as os : List Int) (i : Nat) :
    Int.gcd (comAtP gs h n as os i) n = 1 := commitment_unit hgs hh _ _

theorem comAtP_nonneg {gs : List Int} {h n : Int} (hn : 0 < n) (as os : List Int) (i : Nat) :
    0 ≤ comAtP gs h n as os i := commitment_nonneg hn _ _

theorem commitAt_ok {ped : Pedersen} {gs : List Int} {h n : Int} (G : Good ped gs h n)
    {as os : List Int} (ha : ∀ a ∈ as, 0 ≤ a) (ho : ∀ o ∈ os, 0 ≤ o) {i : Nat}
    (h1 : i < as.length) (h2 : i < os.length) :
    commitAt ped as os i = .ok (comAtP gs h n as os i) := by
  unfold commitAt comAtP
  rw [idx_ok 0 h1, Res.ok_bind, idx_ok 0 h2, Res.ok_bind, G.gs_eq,
    G.commit (valid_slot (getD_nonneg ha i) (getD_nonneg ho i))]

/-! ### All commitments of the first message -/

/-- Sizes and signs of a vector of exponents for `k` messages and `m` ciphertexts. -/
structure WitOk (k m : Nat) (w : Witness) : Prop where
  messages : w.messages.length = k ∧ ∀ x ∈ w.messages, 0 ≤ x
  rs : w.rs.length = k ∧ ∀ x ∈ w.rs, 0 ≤ x
  as : w.as.length = k ∧ ∀ x ∈ w.as, 0 ≤ x
  asOpen : w.asOpen.length = k ∧ ∀ x ∈ w.asOpen, 0 ≤ x
  bs : w.bs.length = k ∧ ∀ x ∈ w.bs, 0 ≤ x
  alphas : w.alphas.length = k ∧ ∀ x ∈ w.alphas, 0 ≤ x
  gammas : w.gammas.length = k ∧ ∀ x ∈ w.gammas, 0 ≤ x
  enc : w.enc.length = m ∧ ∀ x ∈ w.enc, 0 ≤ x
  messagesOpen : 0 ≤ w.messagesOpen
  rsOpen : 0 ≤ w.rsOpen
  bsOpen : 0 ≤ w.bsOpen
  alphasOpen1 : 0 ≤ w.alphasOpen1
  alphasOpen2 : 0 ≤ w.alphasOpen2
  gammasOpen1 : 0 ≤ w.gammasOpen1
  gammasOpen2 : 0 ≤ w.gammasOpen2

theorem WitOk.mask {k m : Nat} {d w : Witness} {c : Int} (hc : 0 ≤ c) (hd : WitOk k m d)
    (hw : WitOk k m w) : WitOk k m (Witness.mask c d w) := by
  have L : ∀ {k : Nat} {x y : List Int}, (x.length = k ∧ ∀ z ∈ x, 0 ≤ z) →
      (y.length = k ∧ ∀ z ∈ y, 0 ≤ z) →
      ((maskL c x y).length = k ∧ ∀ z ∈ maskL c x y, 0 ≤ z) := fun h1 h2 =>
    ⟨by rw [maskL_length (by rw [h1.1, h2.1]), h2.1], maskL_nonneg hc h1.2 h2.2⟩
  have S : ∀ {x y : Int}, 0 ≤ x → 0 ≤ y → 0 ≤ x + c * y :=
    fun h1 h2 => add_nonneg h1 (mul_nonneg hc h2)
  exact ⟨L hd.messages hw.messages, L hd.rs hw.rs, L hd.as hw.as, L hd.asOpen hw.asOpen,
    L hd.bs hw.bs, L hd.alphas hw.alphas, L hd.gammas hw.gammas, L hd.enc hw.enc,
    S hd.messagesOpen hw.messagesOpen, S hd.rsOpen hw.rsOpen, S hd.bsOpen hw.bsOpen,
    S hd.alphasOpen1 hw.alphasOpen1, S hd.alphasOpen2 hw.alphasOpen2,
    S hd.gammasOpen1 hw.gammasOpen1, S hd.gammasOpen2 hw.gammasOpen2⟩

/-- The eight commitments. -/
def comP (gs : List Int) (h n : Int) (commitAs : List Int) (w : Witness) :
    Int × Int × List Int × Int × Int × Int × Int × Int :=
  (commitment gs h n w.messages w.messagesOpen, commitment gs h n w.rs w.rsOpen,
    comAsP gs h n w.as w.asOpen commitAs.length, commitment gs h n w.bs w.bsOpen,
    commitment gs h n w.alphas w.alphasOpen1,
    accP n (commitment gs h n (List.replicate gs.length 0) w.alphasOpen2) commitAs w.messages,
    commitment gs h n w.gammas w.gammasOpen1,
    accP n (commitment gs h n (List.replicate gs.length 0) w.gammasOpen2) commitAs w.rs)

theorem valid_zeros {gs : List Int} {r : Int} (hr : 0 ≤ r) :
    Valid gs (List.replicate gs.length 0) r :=
  ⟨by simp, fun m hm => by rw [List.eq_of_mem_replicate hm], hr⟩

theorem commitments_ok {ped : Pedersen} {gs : List Int} {h n : Int} (G : Good ped gs h n)
    (hn : 0 < n) {k m : Nat} {w : Witness} (W : WitOk k m w) (hk : k ≤ gs.length)
    {commitAs : List Int} (hc : commitAs.length = k) :
    commitments ped commitAs w = .ok (comP gs h n commitAs w) := by
  have V : ∀ {x : List Int} {r : Int}, (x.length = k ∧ ∀ z ∈ x, 0 ≤ z) → 0 ≤ r → Valid gs x r :=
    fun h1 h2 => ⟨by rw [h1.1]; exact hk, h1.2, h2⟩
  have hA : (List.range commitAs.length).mapM (commitAt ped w.as w.asOpen) =
      .ok (comAsP gs h n w.as w.asOpen commitAs.length) := by
    unfold comAsP
    apply mapM_eq_map
    intro i hi
    have hi : i < k := by rw [← hc]; simpa using hi
    exact commitAt_ok G W.as.2 W.asOpen.2 (by rw [W.as.1]; exact hi) (by rw [W.asOpen.1]; exact hi)
  unfold commitments
  simp only [G.commit (V W.messages W.messagesOpen), G.commit (V W.rs W.rsOpen), hA,
    G.commit (V W.bs W.bsOpen), G.commit (V W.alphas W.alphasOpen1),
    G.commit (V W.gammas W.gammasOpen1), G.gs_eq, G.commit (valid_zeros W.alphasOpen2),
    G.commit (valid_zeros W.gammasOpen2), accumulate_ok G hn W.messages.2,
    accumulate_ok G hn W.rs.2, Res.ok_bind, Res.pure_eq, comP]

theorem zeros_mask (c : Int) (k : Nat) :
    maskL c (List.replicate k 0) (List.replicate k 0) = List.replicate k 0 := by
  apply ext_getD
  · rw [maskL_length (by simp)]
  · intro j hj
    rw [maskL_getD (by simp)]
    have : j < k := by rw [maskL_length (by simp)] at hj; simpa using hj
    rw [getD_replicate this]
    ring

/-- Dividing the masked commitment by a power of the commitment gives the dummy commitment. -/
theorem unmask_ok {ped : Pedersen} {gs : List Int} {h n : Int} (G : Good ped gs h n) (hn : 0 < n)
    {c masked value D : Int} (hc : 0 ≤ c) (hu : Int.gcd value n = 1) (hD : D % n = D)
    (hM : masked ≡ D * value ^ c.toNat [ZMOD n]) : unmask ped c masked value = .ok D := by
  obtain ⟨i, h1, _, h2⟩ := recover hn hu c.toNat
  unfold unmask Ped.multiply Ped.add
  rw [G.n_eq, modExp_ok hc hn.ne', Res.ok_bind, h1, Res.ok_bind, modMul_ok hn.ne', (h2 D _ hM).2,
    hD]

/-- The same for ciphertexts. -/
theorem unmaskCt_ok {cfg : ExpCfg} {pk : CsPublic} {N s : Nat} {g : Int} {ys : List Int}
    (G : Cs.PubGood cfg pk N s g ys) {c : Int} (hc : 0 ≤ c) {masked value D : CsCt}
    (wm : Wf ((N : Int) ^ (s + 1)) ys.length masked) (wv : Wf ((N : Int) ^ (s + 1)) ys.length value)
    (wD : Wf ((N : Int) ^ (s + 1)) ys.length D)
    (hL : Lin ((N : Int) ^ (s + 1)) ys.length c.toNat D value masked) :
    unmaskCt pk c masked value = .ok D := by
  have hM := modulus_pos G
  set M : Int := (N : Int) ^ (s + 1)
  obtain ⟨i, h1, _, h2⟩ := recover hM wv.uU c.toNat
  have hes : ∀ e ∈ (mulP M value c).es, BN.modInverse e M = .ok (BN.inv e M) := by
    intro e he
    exact BN.modInverse_ok hM ((wv.mul hM c).es e he).2.2
  unfold unmaskCt
  rw [multiply_ok G wv.len hc, Res.ok_bind, G.hmod]
  show (do
    let u ← BN.modInverse (value.u ^ c.toNat % M) M
    let es ← (mulP M value c).es.mapM (fun e => BN.modInverse e M)
    Cs.add pk masked ⟨u, es⟩) = _
  rw [h1, Res.ok_bind, mapM_eq_map (g := fun e => BN.inv e M) hes, Res.ok_bind,
    add_ok G wm.len (by simp [mulP, wv.len])]
  have hu : masked.u * i % M = D.u := by
    rw [(h2 D.u _ hL.u).2, Int.emod_eq_of_lt wD.u0 wD.uM]
  have hes' : List.zipWith (fun x y => x * y % M) masked.es
      ((mulP M value c).es.map (fun e => BN.inv e M)) = D.es := by
    apply ext_getD
    · simp [mulP, wm.len, wv.len, wD.len]
    · intro j hj
      have hj : j < ys.length := by simpa [mulP, wm.len, wv.len] using hj
      have hv : j < value.es.length := by rw [wv.len]; exact hj
      have hDj : j < D.es.length := by rw [wD.len]; exact hj
      rw [getD_zipWith (by rw [wm.len]; exact hj) (by simp [mulP, hv]), getD_map (by simp [mulP, hv]),
        mulP, getD_map hv]
      obtain ⟨i', k1, _, k2⟩ := recover hM (wv.es _ (getD_mem 0 hv)).2.2 c.toNat
      have hg : Int.gcd (value.es.getD j 0 ^ c.toNat % M) M = 1 := by
        rw [gcd_emod_left]; exact gcd_pow_left (wv.es _ (getD_mem 0 hv)).2.2 _
      rw [BN.modInverse_ok hM hg] at k1
      cases k1
      have hd := wD.es _ (getD_mem 0 hDj)
      rw [(k2 (D.es.getD j 0) _ (hL.es j hj)).2, Int.emod_eq_of_lt hd.1 hd.2.1]
  show Res.ok (CsCt.mk (masked.u * i % M) _) = _
  rw [hu, hes']

end PJC.Bb
