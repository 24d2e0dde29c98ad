import Verif.Model.BbSig
import Verif.Lemmas.Sigma
set_option linter.unusedSectionVars false
/-
Ciphertext arithmetic of the Camenisch–Shoup scheme as plain functions, and its linearity in the
exponents, as needed for the oblivious signature.
-/
namespace PJC.Bb
open PJC.DJ

/-! ### Lists -/

theorem idx_ok {α : Type} {l : List α} {i : Nat} (a : α) (h : i < l.length) :
    idx l i = .ok (l.getD i a) := by
  unfold idx
  rw [getElem?_getD a h]

theorem idx_ub {α : Type} {l : List α} {i : Nat} (h : l.length ≤ i) : idx l i = .ub := by
  unfold idx
  rw [List.getElem?_eq_none h]

theorem idx_eq_ok {α : Type} {l : List α} {i : Nat} {x : α} (h : idx l i = .ok x) :
    i < l.length ∧ ∀ a, l.getD i a = x := by
  unfold idx at h
  split at h
  · rename_i y hy
    cases h
    obtain ⟨h1, h2⟩ := List.getElem?_eq_some_iff.1 hy
    exact ⟨h1, fun a => by rw [List.getD_eq_getElem _ _ h1, h2]⟩
  · cases h

theorem foldlM_inv {α β : Type} {f : β → α → Res β} {g : β → α → β} {P : β → Prop} :
    ∀ {l : List α} {b : β}, P b → (∀ b, P b → ∀ a ∈ l, f b a = .ok (g b a) ∧ P (g b a)) →
      l.foldlM f b = .ok (l.foldl g b) ∧ P (l.foldl g b)
  | [], b, hb, _ => ⟨rfl, hb⟩
  | a :: l, b, hb, h => by
    obtain ⟨h1, h2⟩ := h b hb a (by simp)
    have := foldlM_inv (l := l) h2 (fun b hb a ha => h b hb a (by simp [ha]))
    rw [List.foldlM_cons, h1, Res.ok_bind, List.foldl_cons]
    exact this

theorem getD_map_range {α : Type} {n i : Nat} (f : Nat → α) (a : α) (h : i < n) :
    ((List.range n).map f).getD i a = f i := by
  simp [List.getD_eq_getElem?_getD, h]

theorem getD_zipWith {f : Int → Int → Int} {xs ys : List Int} {i : Nat} (h1 : i < xs.length)
    (h2 : i < ys.length) : (List.zipWith f xs ys).getD i 0 = f (xs.getD i 0) (ys.getD i 0) := by
  simp [List.getD_eq_getElem?_getD, h1, h2]

theorem getD_map {f : Int → Int} {xs : List Int} {i : Nat} (h1 : i < xs.length) :
    (xs.map f).getD i 0 = f (xs.getD i 0) := by
  simp [List.getD_eq_getElem?_getD, h1]

theorem getD_mem {α : Type} {l : List α} {i : Nat} (a : α) (h : i < l.length) : l.getD i a ∈ l := by
  rw [List.getD_eq_getElem _ _ h]
  exact List.getElem_mem h

theorem getD_drop_take {l : List Int} {a b j : Nat} (h : j < b) :
    ((l.drop a).take b).getD j 0 = l.getD (a + j) 0 := by
  simp [List.getD_eq_getElem?_getD, List.getElem?_take, h, List.getElem?_drop]

/-! ### Ciphertexts as plain data -/

/-- The ciphertext `EncryptWithRand` computes. -/
def encP (M N g : Int) (ys ms : List Int) (r : Int) : CsCt :=
  ⟨g ^ r.toNat % M, (List.range ys.length).map fun i =>
    ys.getD i 0 ^ r.toNat * (1 + N) ^ (ms.getD i 0).toNat % M⟩

/-- The ciphertext `Add` computes. -/
def addP (M : Int) (a b : CsCt) : CsCt :=
  ⟨a.u * b.u % M, List.zipWith (fun x y => x * y % M) a.es b.es⟩

/-- The ciphertext `Multiply` computes. -/
def mulP (M : Int) (a : CsCt) (k : Int) : CsCt :=
  ⟨a.u ^ k.toNat % M, a.es.map (fun e => e ^ k.toNat % M)⟩

/-- All components invertible and reduced. -/
structure Wf (M : Int) (L : Nat) (c : CsCt) : Prop where
  len : c.es.length = L
  u0 : 0 ≤ c.u
  uM : c.u < M
  uU : Int.gcd c.u M = 1
  es : ∀ e ∈ c.es, 0 ≤ e ∧ e < M ∧ Int.gcd e M = 1

theorem Wf.add {M : Int} (hM : 0 < M) {L : Nat} {a b : CsCt} (ha : Wf M L a) (hb : Wf M L b) :
    Wf M L (addP M a b) := by
  refine ⟨?_, Int.emod_nonneg _ hM.ne', Int.emod_lt_of_pos _ hM, ?_, ?_⟩
  · simp [addP, ha.len, hb.len]
  · show Int.gcd (a.u * b.u % M) M = 1
    rw [gcd_emod_left]
    exact gcd_mul_left' ha.uU hb.uU
  · intro e he
    obtain ⟨i, hi, rfl⟩ := List.mem_iff_getElem.1 he
    simp only [addP, List.getElem_zipWith]
    refine ⟨Int.emod_nonneg _ hM.ne', Int.emod_lt_of_pos _ hM, ?_⟩
    rw [gcd_emod_left]
    exact gcd_mul_left' (ha.es _ (List.getElem_mem _)).2.2 (hb.es _ (List.getElem_mem _)).2.2

theorem Wf.mul {M : Int} (hM : 0 < M) {L : Nat} {a : CsCt} (ha : Wf M L a) (k : Int) :
    Wf M L (mulP M a k) := by
  refine ⟨?_, Int.emod_nonneg _ hM.ne', Int.emod_lt_of_pos _ hM, ?_, ?_⟩
  · simp [mulP, ha.len]
  · show Int.gcd (a.u ^ k.toNat % M) M = 1
    rw [gcd_emod_left]
    exact gcd_pow_left ha.uU _
  · intro e he
    obtain ⟨x, hx, rfl⟩ := List.mem_map.1 he
    refine ⟨Int.emod_nonneg _ hM.ne', Int.emod_lt_of_pos _ hM, ?_⟩
    rw [gcd_emod_left]
    exact gcd_pow_left (ha.es _ hx).2.2 _

theorem gcd_one_add (N : Int) : Int.gcd (1 + N) N = 1 := by
  rw [Int.gcd_comm, Int.gcd_add_self_right]
  simp

theorem gcd_modulus {x N : Int} (h : Int.gcd x N = 1) (k : Nat) : Int.gcd x (N ^ k) = 1 :=
  Int.isCoprime_iff_gcd_eq_one.1 (Int.isCoprime_iff_gcd_eq_one.2 h).pow_right

theorem Wf.enc {M N : Int} (hM : 0 < M) {g : Int} {ys : List Int} (hN : Int.gcd (1 + N) M = 1)
    (hg : Int.gcd g M = 1) (hys : ∀ y ∈ ys, Int.gcd y M = 1) (ms : List Int) (r : Int) :
    Wf M ys.length (encP M N g ys ms r) := by
  refine ⟨?_, Int.emod_nonneg _ hM.ne', Int.emod_lt_of_pos _ hM, ?_, ?_⟩
  · simp [encP]
  · show Int.gcd (g ^ r.toNat % M) M = 1
    rw [gcd_emod_left]
    exact gcd_pow_left hg _
  · intro e he
    obtain ⟨i, hi, rfl⟩ := List.mem_map.1 he
    refine ⟨Int.emod_nonneg _ hM.ne', Int.emod_lt_of_pos _ hM, ?_⟩
    rw [gcd_emod_left]
    exact gcd_mul_left' (gcd_pow_left (hys _ (getD_mem 0 (by simpa using hi))) _)
      (gcd_pow_left hN _)

variable {cfg : ExpCfg} {pk : CsPublic} {N s : Nat} {g : Int} {ys : List Int}

theorem modulus_pos (G : Cs.PubGood cfg pk N s g ys) : (0 : Int) < (N : Int) ^ (s + 1) := by
  have : (0 : Int) < N := by have := G.npos; omega
  positivity

theorem encryptWithRand_ok (G : Cs.PubGood cfg pk N s g ys) {ms : List Int} {r : Int}
    (hms : ms.length ≤ ys.length) (hm0 : ∀ m ∈ ms, 0 ≤ m) (hr : 0 ≤ r)
    (hrn : Int.gcd r N = 1 ∨ r = 0) :
    Cs.encryptWithRand pk ms r = .ok (encP ((N : Int) ^ (s + 1)) N g ys ms r) := by
  have hps1 := modulus_pos G
  have hfl : pk.ysFbe.length = ys.length := (G.ysF.length_eq).symm
  obtain ⟨es, h1, h2, h4, h3⟩ := Cs.encLoop_spec G hr ys pk.ysFbe ms G.ysF
  have hg := FixedBaseExp.modExp_spec hps1 G.gF hr
  unfold Cs.encryptWithRand
  rw [if_neg (by omega), if_neg (by rw [G.hn]; rintro (h | ⟨h, h'⟩); omega; tauto), hg]
  simp only [Res.ok_bind, h1, Res.pure_eq, encP, Res.ok.injEq, CsCt.mk.injEq, true_and]
  apply Ped.ext_getD
  · simp [h2]
  · intro i hi
    rw [getD_map_range _ _ (by omega)]
    have e1 := h3 i (by omega)
    obtain ⟨e2, e3⟩ := h4 _ (getD_mem 0 hi)
    have hmi : 0 ≤ ms.getD i 0 := by
      by_cases hi' : i < ms.length
      · exact hm0 _ (getD_mem 0 hi')
      · rw [List.getD_eq_default _ _ (by omega)]
    have e4 : (ms.getD i 0 % (N : Int) ^ s).toNat ≡ (ms.getD i 0).toNat [MOD N ^ s] := by
      obtain ⟨m, hm⟩ := Int.eq_ofNat_of_zero_le hmi
      rw [hm]
      have : ((m : Int) % (N : Int) ^ s).toNat = m % N ^ s := by
        have : ((m : Int) % (N : Int) ^ s) = ((m % N ^ s : Nat) : Int) := by push_cast; rfl
        rw [this]; rfl
      rw [this]
      exact Nat.mod_modEq _ _
    have e5 := one_add_pow_period N (N : Int) (dvd_refl _) s e4
    have e6 := e1.trans (e5.mul_left _)
    have e7 : es.getD i 0 % (N : Int) ^ (s + 1) = es.getD i 0 := Int.emod_eq_of_lt e2 e3
    rw [← e7]
    exact e6

theorem encryptWithRand_err (G : Cs.PubGood cfg pk N s g ys) {ms : List Int} {r : Int}
    (hms : ms.length ≤ ys.length) (hrn : ¬ (Int.gcd r N = 1 ∨ r = 0)) :
    Cs.encryptWithRand pk ms r = .err .invalidArgument := by
  have hfl : pk.ysFbe.length = ys.length := (G.ysF.length_eq).symm
  unfold Cs.encryptWithRand
  rw [if_neg (by omega), if_pos (by rw [G.hn]; right; tauto)]

theorem add_ok (G : Cs.PubGood cfg pk N s g ys) {a b : CsCt} (ha : a.es.length = ys.length)
    (hb : b.es.length = ys.length) :
    Cs.add pk a b = .ok (addP ((N : Int) ^ (s + 1)) a b) := by
  have hps1 := modulus_pos G
  unfold Cs.add
  rw [if_neg (by omega), if_neg (by rw [G.hlen]; omega), G.hmod, modMul_ok hps1.ne', Res.ok_bind,
    mapM_eq_map (g := fun e : Int × Int => e.1 * e.2 % (N : Int) ^ (s + 1))
      (fun e _ => modMul_ok hps1.ne')]
  simp only [Res.ok_bind, Res.pure_eq, addP, Res.ok.injEq, CsCt.mk.injEq, true_and]
  rw [List.zip, List.map_zipWith]

theorem multiply_ok (G : Cs.PubGood cfg pk N s g ys) {a : CsCt} {k : Int}
    (ha : a.es.length = ys.length) (hk : 0 ≤ k) :
    Cs.multiply pk a k = .ok (mulP ((N : Int) ^ (s + 1)) a k) := by
  have hps1 := modulus_pos G
  unfold Cs.multiply
  rw [G.hmod, modExp_ok hk hps1.ne', Res.ok_bind,
    Cs.multiplyLoop_spec hk hps1 _ _ (by rw [G.hlen, ha]), G.hlen, ← ha, List.take_length]
  rfl

/-! ### Linearity -/

/-- `z` is `x * y^c`, component by component. -/
structure Lin (M : Int) (L : Nat) (c : Nat) (x y z : CsCt) : Prop where
  u : z.u ≡ x.u * y.u ^ c [ZMOD M]
  es : ∀ i < L, z.es.getD i 0 ≡ x.es.getD i 0 * y.es.getD i 0 ^ c [ZMOD M]

theorem pow_linear {d x c : Int} (b : Int) (hd : 0 ≤ d) (hx : 0 ≤ x) (hc : 0 ≤ c) :
    b ^ (d + c * x).toNat = b ^ d.toNat * (b ^ x.toNat) ^ c.toNat := by
  rw [Int.toNat_add hd (mul_nonneg hc hx), Int.toNat_mul hc hx, pow_add, mul_comm c.toNat, pow_mul]

theorem mod_linear {M a b z : Int} {c : Nat} (h : z ≡ a * b ^ c [ZMOD M]) :
    z % M ≡ (a % M) * (b % M) ^ c [ZMOD M] :=
  ((Int.mod_modEq z M).trans h).trans
    (((Int.mod_modEq a M).symm).mul ((Int.mod_modEq b M).symm.pow c))

theorem Lin.add {M : Int} {L c : Nat} {x y z x' y' z' : CsCt} (hx : x.es.length = L)
    (hy : y.es.length = L) (hz : z.es.length = L) (hx' : x'.es.length = L) (hy' : y'.es.length = L)
    (hz' : z'.es.length = L) (h : Lin M L c x y z) (h' : Lin M L c x' y' z') :
    Lin M L c (addP M x x') (addP M y y') (addP M z z') := by
  constructor
  · apply mod_linear
    refine (h.u.mul h'.u).trans (meq_of_eq ?_)
    rw [mul_pow]; ring
  · intro i hi
    simp only [addP]
    rw [getD_zipWith (by omega) (by omega), getD_zipWith (by omega) (by omega),
      getD_zipWith (by omega) (by omega)]
    apply mod_linear
    refine ((h.es i hi).mul (h'.es i hi)).trans (meq_of_eq ?_)
    rw [mul_pow]; ring

theorem Lin.mul {M : Int} {L : Nat} {k : CsCt} (hk : k.es.length = L) {d x c : Int} (hd : 0 ≤ d)
    (hx : 0 ≤ x) (hc : 0 ≤ c) :
    Lin M L c.toNat (mulP M k d) (mulP M k x) (mulP M k (d + c * x)) := by
  constructor
  · exact mod_linear (meq_of_eq (pow_linear _ hd hx hc))
  · intro i hi
    simp only [mulP]
    rw [getD_map (by omega), getD_map (by omega), getD_map (by omega)]
    exact mod_linear (meq_of_eq (pow_linear _ hd hx hc))

theorem Lin.enc {M N g : Int} {ys : List Int} {ds xs zs : List Int} {rd rx c : Int} (hrd : 0 ≤ rd)
    (hrx : 0 ≤ rx) (hc : 0 ≤ c) (hd : ∀ i, 0 ≤ ds.getD i 0) (hx : ∀ i, 0 ≤ xs.getD i 0)
    (hz : ∀ i, zs.getD i 0 = ds.getD i 0 + c * xs.getD i 0) :
    Lin M ys.length c.toNat (encP M N g ys ds rd) (encP M N g ys xs rx)
      (encP M N g ys zs (rd + c * rx)) := by
  constructor
  · exact mod_linear (meq_of_eq (pow_linear _ hrd hrx hc))
  · intro i hi
    simp only [encP]
    rw [getD_map_range _ _ hi, getD_map_range _ _ hi, getD_map_range _ _ hi]
    apply mod_linear
    apply meq_of_eq
    rw [hz, pow_linear _ hrd hrx hc, pow_linear _ (hd i) (hx i) hc, mul_pow]
    ring

/-! ### The ciphertexts of a request -/

instance : Inhabited CsCt := ⟨⟨0, []⟩⟩

/-- One step of the homomorphic loop. -/
def homStepP (M : Int) (as gammas : List Int) (ks yks : List CsCt) (start : Nat) (ct : CsCt)
    (j : Nat) : CsCt :=
  addP M (addP M ct (mulP M (ks.getD j default) (as.getD (start + j) 0)))
    (mulP M (yks.getD j default) (gammas.getD (start + j) 0))

/-- The size of batch `i`. -/
def batchSize (len n i : Nat) : Nat := min len (n - i * len)

/-- Ciphertext `i`. -/
def homCtP (M N g : Int) (ys ms as gammas rands : List Int) (ks yks : List CsCt) (i : Nat) : CsCt :=
  (List.range (batchSize ys.length ms.length i)).foldl
    (homStepP M as gammas ks yks (i * ys.length))
    (encP M N g ys ((ms.drop (i * ys.length)).take (batchSize ys.length ms.length i))
      (rands.getD i 0))

/-- Acceptable encryption randomness. -/
def RandOk (N : Nat) (r : Int) : Prop := Int.gcd r N = 1 ∨ r = 0

instance (N : Nat) (r : Int) : Decidable (RandOk N r) := inferInstanceAs (Decidable (_ ∨ _))

/-- The invariants of the scheme needed below. -/
structure Units (M N g : Int) (ys : List Int) : Prop where
  pos : 0 < M
  hN : Int.gcd (1 + N) M = 1
  hg : Int.gcd g M = 1
  hys : ∀ y ∈ ys, Int.gcd y M = 1

theorem homStepP_wf {M N : Int} {g : Int} {ys : List Int} (U : Units M N g ys)
    {as gammas : List Int} {ks yks : List CsCt} (hks : ∀ k ∈ ks, Wf M ys.length k)
    (hyks : ∀ k ∈ yks, Wf M ys.length k) {start j : Nat} {ct : CsCt}
    (hct : Wf M ys.length ct) (h1 : j < ks.length) (h2 : j < yks.length) :
    Wf M ys.length (homStepP M as gammas ks yks start ct j) := by
  unfold homStepP
  exact (hct.add U.pos ((hks _ (getD_mem _ h1)).mul U.pos _)).add U.pos
    ((hyks _ (getD_mem _ h2)).mul U.pos _)

theorem foldl_wf {M N : Int} {g : Int} {ys : List Int} (U : Units M N g ys)
    {as gammas : List Int} {ks yks : List CsCt} (hks : ∀ k ∈ ks, Wf M ys.length k)
    (hyks : ∀ k ∈ yks, Wf M ys.length k) {start : Nat} : ∀ {l : List Nat} {ct : CsCt},
    Wf M ys.length ct → (∀ j ∈ l, j < ks.length ∧ j < yks.length) →
    Wf M ys.length (l.foldl (homStepP M as gammas ks yks start) ct)
  | [], _, h, _ => h
  | j :: l, _, h, hl => by
    rw [List.foldl_cons]
    exact foldl_wf U hks hyks
      (homStepP_wf U hks hyks h (hl j (by simp)).1 (hl j (by simp)).2)
      (fun x hx => hl x (by simp [hx]))

theorem homCtP_wf {M N : Int} {g : Int} {ys : List Int} (U : Units M N g ys)
    {ms as gammas rands : List Int} {ks yks : List CsCt} (hks : ∀ k ∈ ks, Wf M ys.length k)
    (hyks : ∀ k ∈ yks, Wf M ys.length k) (hk : ks.length = ys.length) (hy : yks.length = ys.length)
    (i : Nat) : Wf M ys.length (homCtP M N g ys ms as gammas rands ks yks i) := by
  unfold homCtP
  apply foldl_wf U hks hyks (Wf.enc U.pos U.hN U.hg U.hys _ _)
  intro j hj
  have : j < batchSize ys.length ms.length i := by simpa using hj
  unfold batchSize at this
  omega

theorem foldl_lin {M N : Int} {g : Int} {ys : List Int} (U : Units M N g ys)
    {ad ax az gd gx gz : List Int} {ks yks : List CsCt} (hks : ∀ k ∈ ks, Wf M ys.length k)
    (hyks : ∀ k ∈ yks, Wf M ys.length k) {start : Nat} {c : Int} (hc : 0 ≤ c) :
    ∀ {l : List Nat} {x y z : CsCt}, Wf M ys.length x → Wf M ys.length y → Wf M ys.length z →
    Lin M ys.length c.toNat x y z →
    (∀ j ∈ l, j < ks.length ∧ j < yks.length ∧ 0 ≤ ad.getD (start + j) 0 ∧
      0 ≤ ax.getD (start + j) 0 ∧ 0 ≤ gd.getD (start + j) 0 ∧ 0 ≤ gx.getD (start + j) 0 ∧
      az.getD (start + j) 0 = ad.getD (start + j) 0 + c * ax.getD (start + j) 0 ∧
      gz.getD (start + j) 0 = gd.getD (start + j) 0 + c * gx.getD (start + j) 0) →
    Lin M ys.length c.toNat (l.foldl (homStepP M ad gd ks yks start) x)
      (l.foldl (homStepP M ax gx ks yks start) y) (l.foldl (homStepP M az gz ks yks start) z)
  | [], _, _, _, _, _, _, h, _ => h
  | j :: l, x, y, z, wx, wy, wz, h, hl => by
    obtain ⟨h1, h2, h3, h4, h5, h6, h7, h8⟩ := hl j (by simp)
    have wk := hks _ (getD_mem default h1)
    have wY := hyks _ (getD_mem default h2)
    rw [List.foldl_cons, List.foldl_cons, List.foldl_cons]
    refine foldl_lin U hks hyks hc (homStepP_wf U hks hyks wx h1 h2)
      (homStepP_wf U hks hyks wy h1 h2) (homStepP_wf U hks hyks wz h1 h2) ?_
      (fun x hx => hl x (by simp [hx]))
    unfold homStepP
    rw [h7, h8]
    have m1 : ∀ e, Wf M ys.length (mulP M (ks.getD j default) e) := fun e => wk.mul U.pos e
    have m2 : ∀ e, Wf M ys.length (mulP M (yks.getD j default) e) := fun e => wY.mul U.pos e
    refine Lin.add (wx.add U.pos (m1 _)).len (wy.add U.pos (m1 _)).len (wz.add U.pos (m1 _)).len
      (m2 _).len (m2 _).len (m2 _).len ?_ (Lin.mul wY.len h5 h6 hc)
    exact Lin.add wx.len wy.len wz.len (m1 _).len (m1 _).len (m1 _).len h (Lin.mul wk.len h3 h4 hc)

theorem getD_nonneg {l : List Int} (h : ∀ x ∈ l, 0 ≤ x) (i : Nat) : 0 ≤ l.getD i 0 := by
  by_cases hi : i < l.length
  · exact h _ (getD_mem 0 hi)
  · rw [List.getD_eq_default _ _ (by omega)]

theorem drop_take_nonneg {l : List Int} (h : ∀ x ∈ l, 0 ≤ x) (a b : Nat) :
    ∀ x ∈ (l.drop a).take b, 0 ≤ x :=
  fun x hx => h x (List.mem_of_mem_drop (List.mem_of_mem_take hx))

/-- The ciphertexts computed from `d + c * x` are those from `d` times those from `x` to the
power `c`. -/
theorem homCtP_lin {M N : Int} {g : Int} {ys : List Int} (U : Units M N g ys)
    {md mx mz ad ax az gd gx gz rd rx rz : List Int} {ks yks : List CsCt}
    (hks : ∀ k ∈ ks, Wf M ys.length k) (hyks : ∀ k ∈ yks, Wf M ys.length k)
    (hk : ks.length = ys.length) (hy : yks.length = ys.length) {c : Int} (hc : 0 ≤ c)
    (hmd : ∀ x ∈ md, 0 ≤ x) (hmx : ∀ x ∈ mx, 0 ≤ x) (had : ∀ x ∈ ad, 0 ≤ x) (hax : ∀ x ∈ ax, 0 ≤ x)
    (hgd : ∀ x ∈ gd, 0 ≤ x) (hgx : ∀ x ∈ gx, 0 ≤ x) (hrd : ∀ x ∈ rd, 0 ≤ x) (hrx : ∀ x ∈ rx, 0 ≤ x)
    (hl1 : md.length = mx.length) (hl2 : mz.length = mx.length)
    (hm : ∀ i < mx.length, mz.getD i 0 = md.getD i 0 + c * mx.getD i 0)
    (ha : ∀ i < mx.length, az.getD i 0 = ad.getD i 0 + c * ax.getD i 0)
    (hg : ∀ i < mx.length, gz.getD i 0 = gd.getD i 0 + c * gx.getD i 0)
    (i : Nat) (hr : rz.getD i 0 = rd.getD i 0 + c * rx.getD i 0) :
    Lin M ys.length c.toNat (homCtP M N g ys md ad gd rd ks yks i)
      (homCtP M N g ys mx ax gx rx ks yks i) (homCtP M N g ys mz az gz rz ks yks i) := by
  unfold homCtP
  rw [hl1, hl2, hr]
  set L := batchSize ys.length mx.length i with hL
  refine foldl_lin U hks hyks hc (Wf.enc U.pos U.hN U.hg U.hys _ _)
    (Wf.enc U.pos U.hN U.hg U.hys _ _) (Wf.enc U.pos U.hN U.hg U.hys _ _) ?_ ?_
  · refine Lin.enc (getD_nonneg hrd i) (getD_nonneg hrx i) hc
      (getD_nonneg (drop_take_nonneg hmd _ _)) (getD_nonneg (drop_take_nonneg hmx _ _)) ?_
    intro j
    by_cases hj : j < L
    · rw [getD_drop_take hj, getD_drop_take hj, getD_drop_take hj]
      apply hm
      unfold batchSize at hL
      omega
    · have e : ∀ l : List Int, ((l.drop (i * ys.length)).take L).getD j 0 = 0 := by
        intro l
        apply List.getD_eq_default
        rw [List.length_take]
        omega
      rw [e, e, e]; ring
  · intro j hj
    have hj : j < L := by simpa using hj
    unfold batchSize at hL
    exact ⟨by omega, by omega, getD_nonneg had _, getD_nonneg hax _, getD_nonneg hgd _,
      getD_nonneg hgx _, ha _ (by omega), hg _ (by omega)⟩

theorem lt_numCts {n len i : Nat} (hl : 0 < len) : i < numCts n len ↔ i * len < n := by
  unfold numCts
  rw [Nat.lt_div_iff_mul_lt hl]
  omega

theorem homCt_ok (G : Cs.PubGood cfg pk N s g ys) (U : Units ((N : Int) ^ (s + 1)) N g ys)
    {ms as gammas rands : List Int} {ks yks : List CsCt}
    (hks : ∀ k ∈ ks, Wf ((N : Int) ^ (s + 1)) ys.length k)
    (hyks : ∀ k ∈ yks, Wf ((N : Int) ^ (s + 1)) ys.length k)
    (hk : ks.length = ys.length) (hy : yks.length = ys.length) (hm : ∀ x ∈ ms, 0 ≤ x)
    (ha : ∀ x ∈ as, 0 ≤ x) (hg : ∀ x ∈ gammas, 0 ≤ x) (hr : ∀ x ∈ rands, 0 ≤ x)
    (hal : as.length = ms.length) (hgl : gammas.length = ms.length) {i : Nat}
    (hi : i < rands.length) :
    homCt pk ms as gammas rands ks yks i =
      if RandOk N (rands.getD i 0) then
        .ok (homCtP ((N : Int) ^ (s + 1)) N g ys ms as gammas rands ks yks i)
      else .err .invalidArgument := by
  unfold homCt
  simp only [G.hlen, idx_ok 0 hi, Res.ok_bind]
  have hlen : ((ms.drop (i * ys.length)).take (min ys.length (ms.length - i * ys.length))).length ≤
      ys.length := by
    rw [List.length_take]; omega
  split
  · rename_i hrand
    rw [encryptWithRand_ok G hlen (drop_take_nonneg hm _ _) (getD_nonneg hr i) hrand, Res.ok_bind]
    refine (foldlM_inv (P := Wf ((N : Int) ^ (s + 1)) ys.length)
      (Wf.enc U.pos U.hN U.hg U.hys _ _) ?_).1
    intro ct hct j hj
    have hj : j < min ys.length (ms.length - i * ys.length) := by simpa using hj
    have h1 : j < ks.length := by omega
    have h2 : j < yks.length := by omega
    refine ⟨?_, homStepP_wf U hks hyks hct h1 h2⟩
    have wk := hks _ (getD_mem default h1)
    have wY := hyks _ (getD_mem default h2)
    unfold homStep homStepP
    rw [idx_ok default h1, Res.ok_bind, idx_ok 0 (by omega), Res.ok_bind,
      multiply_ok G wk.len (getD_nonneg ha _), Res.ok_bind,
      add_ok G hct.len (wk.mul U.pos _).len, Res.ok_bind, idx_ok default h2, Res.ok_bind,
      idx_ok 0 (by omega), Res.ok_bind, multiply_ok G wY.len (getD_nonneg hg _), Res.ok_bind,
      add_ok G (hct.add U.pos (wk.mul U.pos _)).len (wY.mul U.pos _).len]
  · rename_i hrand
    rw [encryptWithRand_err G hlen hrand]
    rfl

theorem mapM_ok_or_err {α β : Type} {f : α → Res β} {g : α → β} {P : α → Prop} [DecidablePred P]
    {c : Code} : ∀ {l : List α}, (∀ a ∈ l, f a = if P a then .ok (g a) else .err c) →
    l.mapM f = if ∀ a ∈ l, P a then .ok (l.map g) else .err c
  | [], _ => by simp
  | a :: l, h => by
    have ih := mapM_ok_or_err (l := l) (fun x hx => h x (by simp [hx]))
    rw [List.mapM_cons, h a (by simp), ih]
    by_cases ha : P a
    · by_cases hl : ∀ a ∈ l, P a
      · have : ∀ x ∈ a :: l, P x := by
          intro x hx
          rcases List.mem_cons.1 hx with rfl | hx
          · exact ha
          · exact hl x hx
        rw [if_pos ha, if_pos hl, if_pos this]
        rfl
      · rw [if_pos ha, if_neg hl, if_neg (fun hh => hl fun x hx => hh x (by simp [hx]))]
        rfl
    · have hn : ¬ ∀ x ∈ a :: l, P x := fun hh => ha (hh a (by simp))
      rw [if_neg ha, if_neg hn]
      rfl

theorem homCts_ok (G : Cs.PubGood cfg pk N s g ys) (U : Units ((N : Int) ^ (s + 1)) N g ys)
    (hne : ys ≠ []) {ms as gammas rands : List Int} {ks yks : List CsCt}
    (hks : ∀ k ∈ ks, Wf ((N : Int) ^ (s + 1)) ys.length k)
    (hyks : ∀ k ∈ yks, Wf ((N : Int) ^ (s + 1)) ys.length k)
    (hk : ks.length = ys.length) (hy : yks.length = ys.length) (hm : ∀ x ∈ ms, 0 ≤ x)
    (ha : ∀ x ∈ as, 0 ≤ x) (hg : ∀ x ∈ gammas, 0 ≤ x) (hr : ∀ x ∈ rands, 0 ≤ x)
    (hal : as.length = ms.length) (hgl : gammas.length = ms.length)
    (hrl : rands.length = numCts ms.length ys.length) :
    homCts pk ms as gammas rands ks yks =
      if ∀ r ∈ rands, RandOk N r then
        .ok ((List.range (numCts ms.length ys.length)).map
          (homCtP ((N : Int) ^ (s + 1)) N g ys ms as gammas rands ks yks))
      else .err .invalidArgument := by
  have hl : ys.length ≠ 0 := by simpa using hne
  unfold homCts
  rw [G.hlen, if_neg hl, mapM_ok_or_err (fun i hi => homCt_ok G U hks hyks hk hy hm ha hg hr hal hgl
    (by rw [hrl]; simpa using hi))]
  have : (∀ i ∈ List.range (numCts ms.length ys.length), RandOk N (rands.getD i 0)) ↔
      ∀ r ∈ rands, RandOk N r := by
    rw [← hrl]
    constructor
    · intro h r hr
      obtain ⟨i, hi, rfl⟩ := List.mem_iff_getElem.1 hr
      have := h i (by simpa using hi)
      rwa [List.getD_eq_getElem _ _ hi] at this
    · intro h i hi
      exact h _ (getD_mem 0 (by simpa using hi))
  by_cases h : ∀ r ∈ rands, RandOk N r
  · rw [if_pos (this.2 h), if_pos h]
  · rw [if_neg (fun hh => h (this.1 hh)), if_neg h]

end PJC.Bb
