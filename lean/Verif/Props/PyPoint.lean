import Verif.Model.PyPoint
import Verif.Props.InteropCipher
/-
C118: point objects of the Python package.
-/
namespace PJC.Py.Pt
open PJC Curve Interop

variable {c : Curve} {q : Nat} [Fact q.Prime] {gx gy : Int}

/-! ### Specification -/

/-- The object `r` holds the group element `Q`. -/
def Holds (q : Nat) [Fact q.Prime] (c : Curve) (h : Heap) (r : Nat) (Q : (c.W q).Point) : Prop :=
  h[r]? = some (c.ofPoint Q)

/-- What is assumed of the library: it computes in the group of the curve, and decodes points as
BoringSSL or as OpenSSL does. -/
structure LibOk (L : PointLib) (c : Curve) (q : Nat) [Fact q.Prime] (gx gy : Int) : Prop where
  mul : ∀ k (Q : (c.W q).Point), L.mul k (c.ofPoint Q) = c.ofPoint (k • Q)
  add : ∀ P Q : (c.W q).Point, L.add (c.ofPoint P) (c.ofPoint Q) = c.ofPoint (P + Q)
  generator : L.generator = .aff gx gy
  decode : L.oct2point = c.oct2point ∨ L.oct2point = sec1Decode c

/-! ### Lemmas -/

theorem Holds.lt {h : Heap} {r : Nat} {Q : (c.W q).Point} (hh : Holds q c h r Q) : r < h.length :=
  (List.getElem?_eq_some_iff.1 hh).1

theorem Holds.pt {h : Heap} {r : Nat} {Q : (c.W q).Point} (hh : Holds q c h r Q) :
    h.pt r = c.ofPoint Q := by
  rw [Heap.pt, List.getD, hh, Option.getD_some]

theorem holds_new (h : Heap) (Q : (c.W q).Point) : Holds q c (h ++ [c.ofPoint Q]) h.length Q := by
  simp [Holds]

theorem holds_set {h : Heap} {r : Nat} (hr : r < h.length) (Q : (c.W q).Point) :
    Holds q c (h.set r (c.ofPoint Q)) r Q := by
  simp [Holds, hr]

theorem ofPoint_inj {P Q : (c.W q).Point} (h : c.ofPoint P = c.ofPoint Q) : P = Q := by
  have := congrArg (c.toPoint? q) h
  rwa [toPoint_ofPoint, toPoint_ofPoint, Option.some.injEq] at this

/-- Every point that passes the checks is a group element other than zero. -/
theorem valid_point (hc : c.Certified q gx gy) {P : RawPoint} {P' : RawPoint}
    (h : checkValidity c P = .ok P') : ∃ Q : (c.W q).Point, Q ≠ 0 ∧ P' = c.ofPoint Q ∧ P = P' := by
  unfold checkValidity at h
  split_ifs at h with h1 h2
  cases h
  cases P with
  | inf => simp [Curve.isAtInfinity] at h2
  | aff x y =>
    obtain ⟨Q, -, h3, h4⟩ := toPoint_of_onCurve hc.proper hc.smooth (by simpa [isOnCurve] using h1)
    exact ⟨Q, h4, h3.symm, rfl⟩

theorem base_point (hc : c.Certified q gx gy) :
    ∃ G : (c.W q).Point, G ≠ 0 ∧ c.ofPoint G = .aff gx gy ∧ addOrderOf G = c.order ∧
      ∀ Q : (c.W q).Point, ∃ k : Int, Q = k • G := by
  obtain ⟨G, -, h2, h3⟩ := toPoint_of_onCurve hc.proper hc.smooth hc.base
  have hp : Fact c.order.Prime := ⟨hc.prime⟩
  refine ⟨G, h3, h2, ?_, fun Q => ?_⟩
  · exact addOrderOf_eq_prime (by rw [← hc.card]; exact card_nsmul_eq_zero') h3
  · obtain ⟨k, hk⟩ := mem_zmultiples_of_prime_card hc.card h3 (g' := Q)
    exact ⟨k, hk.symm⟩

/-! ### Theorems -/

/-- **C118, frame**.  A call changes no object but the one whose `*=` or `+=` it is. -/
theorem C118_frame (L : PointLib) (c : Curve) (h : Heap) (call : Call) (r : Nat) (hr : r < h.length)
    (hm : ∀ x, call ≠ .imul r x) (ha : ∀ x, call ≠ .iadd r x) :
    (exec L c h call).2[r]? = h[r]? := by
  have hall : ∀ o, (alloc h o).2[r]? = h[r]? := by
    intro o
    cases o with
    | ok P => simp [alloc, List.getElem?_append_left hr]
    | raises e => rfl
  cases call with
  | fromPoint x y =>
    simp only [exec, newFromPoint]
    split_ifs
    · rfl
    · exact hall _
  | fromLongOrBytes x =>
    simp only [exec, newFromLongOrBytes]
    cases x with
    | bytes bs => exact hall _
    | int n =>
      simp only
      cases longToBytes n with
      | ok bs => exact hall _
      | raises e => rfl
  | infinity => simp [exec, newInfinity, List.getElem?_append_left hr]
  | mul s x => cases x <;> simp [exec, mul, List.getElem?_append_left hr]
  | add s x => cases x <;> simp [exec, add, List.getElem?_append_left hr]
  | imul s x =>
    have hne : s ≠ r := fun e => hm x (by rw [e])
    cases x <;> simp [exec, imul, List.getElem?_set_ne hne]
  | iadd s x =>
    have hne : s ≠ r := fun e => ha x (by rw [e])
    cases x <;> simp [exec, iadd, List.getElem?_set_ne hne]
  | randomGenerator w =>
    simp only [exec, getRandomGenerator, imul]
    rw [List.getElem?_set_ne (by omega), List.getElem?_append_left hr]

/-- **C118, scalar multiplication**: a new object with the multiple, or in place. -/
theorem C118_mul {L : PointLib} (hL : LibOk L c q gx gy) {h : Heap} {r : Nat} {Q : (c.W q).Point}
    (hr : Holds q c h r Q) (k : Int) :
    (∃ h', mul L h r (.num k) = (.ok h.length, h') ∧ Holds q c h' h.length (k • Q) ∧
      Holds q c h' r Q) ∧
    (∃ h', imul L h r (.num k) = (.ok r, h') ∧ Holds q c h' r (k • Q) ∧ h'.length = h.length) := by
  refine ⟨⟨_, rfl, ?_, ?_⟩, ⟨_, rfl, ?_, by simp⟩⟩
  · rw [hr.pt, hL.mul]
    exact holds_new h _
  · rw [Holds, List.getElem?_append_left hr.lt]
    exact hr
  · rw [hr.pt, hL.mul]
    exact holds_set hr.lt _

/-- **C118, addition**: a new object with the sum, or in place; also when both are one object. -/
theorem C118_add {L : PointLib} (hL : LibOk L c q gx gy) {h : Heap} {r s : Nat}
    {P Q : (c.W q).Point} (hr : Holds q c h r P) (hs : Holds q c h s Q) :
    (∃ h', add L h r (.point s) = (.ok h.length, h') ∧ Holds q c h' h.length (P + Q) ∧
      Holds q c h' r P ∧ Holds q c h' s Q) ∧
    (∃ h', iadd L h r (.point s) = (.ok r, h') ∧ Holds q c h' r (P + Q) ∧
      h'.length = h.length ∧ (s ≠ r → Holds q c h' s Q)) := by
  refine ⟨⟨_, rfl, ?_, ?_, ?_⟩, ⟨_, rfl, ?_, by simp, fun hne => ?_⟩⟩
  · rw [hr.pt, hs.pt, hL.add]
    exact holds_new h _
  · rw [Holds, List.getElem?_append_left hr.lt]
    exact hr
  · rw [Holds, List.getElem?_append_left hs.lt]
    exact hs
  · rw [hr.pt, hs.pt, hL.add]
    exact holds_set hr.lt _
  · rw [Holds, List.getElem?_set_ne (Ne.symm hne)]
    exact hs

/-- **C118, comparison**: objects are equal exactly when they hold the same group element; comparing
with anything that is no point is a ValueError. -/
theorem C118_eq {h : Heap} {r s : Nat} {P Q : (c.W q).Point} (hr : Holds q c h r P)
    (hs : Holds q c h s Q) :
    ((eq h r (.point s) = .ok true ↔ P = Q) ∧ (eq h r (.point s) = .ok false ↔ P ≠ Q)) ∧
    ∀ n, eq h r (.num n) = .raises .valueError ∧ eq h r (.int n) = .raises .valueError := by
  have : c.ofPoint P = c.ofPoint Q ↔ P = Q := ⟨ofPoint_inj, fun e => by rw [e]⟩
  refine ⟨⟨?_, ?_⟩, fun n => ⟨rfl, rfl⟩⟩
  · simp [eq, hr.pt, hs.pt, this]
  · simp [eq, hr.pt, hs.pt, this]

/-- **C118, points only**.  Whatever a program does, every object holds a point of the curve. -/
theorem C118_invariant (hc : c.Certified q gx gy) {L : PointLib} (hL : LibOk L c q gx gy)
    (calls : List Call) (r : Nat) (hr : r < (run L c [] calls).length) :
    ∃ Q, Holds q c (run L c [] calls) r Q := by
  have hall : ∀ (h : Heap), (∀ r < h.length, ∃ Q, Holds q c h r Q) → ∀ P : (c.W q).Point,
      ∀ r < (h ++ [c.ofPoint P]).length, ∃ Q, Holds q c (h ++ [c.ofPoint P]) r Q := by
    intro h hh P r hr
    rcases lt_or_eq_of_le (Nat.lt_succ_iff.1 (by simpa using hr)) with h1 | h1
    · obtain ⟨Q, hQ⟩ := hh r h1
      exact ⟨Q, by rw [Holds, List.getElem?_append_left h1]; exact hQ⟩
    · exact ⟨P, h1 ▸ holds_new h P⟩
  have hset : ∀ (h : Heap), (∀ r < h.length, ∃ Q, Holds q c h r Q) → ∀ (s : Nat) (P : (c.W q).Point),
      ∀ r < (h.set s (c.ofPoint P)).length, ∃ Q, Holds q c (h.set s (c.ofPoint P)) r Q := by
    intro h hh s P r hr
    rw [List.length_set] at hr
    by_cases e : s = r
    · exact ⟨P, e ▸ holds_set (e ▸ hr) P⟩
    · obtain ⟨Q, hQ⟩ := hh r hr
      exact ⟨Q, by rw [Holds, List.getElem?_set_ne e]; exact hQ⟩
  have halloc : ∀ (h : Heap), (∀ r < h.length, ∃ Q, Holds q c h r Q) → ∀ o,
      (∀ P, o = Py.Out.ok P → ∃ P0, checkValidity c P0 = .ok P) →
      ∀ r < (alloc h o).2.length, ∃ Q, Holds q c (alloc h o).2 r Q := by
    intro h hh o ho
    cases o with
    | raises e => exact hh
    | ok P =>
      obtain ⟨P0, hP0⟩ := ho P rfl
      obtain ⟨Q, -, rfl, -⟩ := valid_point hc hP0
      exact hall h hh Q
  have hfromBytes : ∀ bs P, Py.fromBytes L.toLib c bs = Py.Out.ok P →
      ∃ P0, checkValidity c P0 = .ok P := by
    intro bs P h
    unfold Py.fromBytes at h
    split at h
    · exact ⟨_, h⟩
    · cases h
  have hpt : ∀ (h : Heap), (∀ r < h.length, ∃ Q, Holds q c h r Q) → ∀ r,
      ∃ Q : (c.W q).Point, h.pt r = c.ofPoint Q := by
    intro h hh r
    by_cases hr : r < h.length
    · obtain ⟨Q, hQ⟩ := hh r hr
      exact ⟨Q, hQ.pt⟩
    · refine ⟨0, ?_⟩
      rw [Heap.pt, List.getD, List.getElem?_eq_none (by omega)]
      rfl
  have hstep : ∀ (h : Heap), (∀ r < h.length, ∃ Q, Holds q c h r Q) → ∀ call,
      ∀ r < (exec L c h call).2.length, ∃ Q, Holds q c (exec L c h call).2 r Q := by
    intro h hh call
    cases call with
    | fromPoint x y =>
      simp only [exec, newFromPoint]
      split_ifs
      · exact hh
      · refine halloc h hh _ ?_
        intro P hP
        unfold Py.fromPoint at hP
        split_ifs at hP
        exact ⟨_, hP⟩
    | fromLongOrBytes x =>
      simp only [exec, newFromLongOrBytes]
      cases x with
      | bytes bs => exact halloc h hh _ (hfromBytes bs)
      | int n =>
        simp only
        cases longToBytes n with
        | ok bs => exact halloc h hh _ (hfromBytes bs)
        | raises e => exact hh
    | infinity => exact hall h hh 0
    | mul s x =>
      cases x with
      | num k =>
        obtain ⟨Q, hQ⟩ := hpt h hh s
        simp only [exec, mul, hQ, hL.mul]
        exact hall h hh _
      | _ => exact hh
    | imul s x =>
      cases x with
      | num k =>
        obtain ⟨Q, hQ⟩ := hpt h hh s
        simp only [exec, imul, hQ, hL.mul]
        exact hset h hh s _
      | _ => exact hh
    | add s x =>
      cases x with
      | point t =>
        obtain ⟨P, hP⟩ := hpt h hh s
        obtain ⟨Q, hQ⟩ := hpt h hh t
        simp only [exec, add, hP, hQ, hL.add]
        exact hall h hh _
      | _ => exact hh
    | iadd s x =>
      cases x with
      | point t =>
        obtain ⟨P, hP⟩ := hpt h hh s
        obtain ⟨Q, hQ⟩ := hpt h hh t
        simp only [exec, iadd, hP, hQ, hL.add]
        exact hset h hh s _
      | _ => exact hh
    | randomGenerator w =>
      obtain ⟨G, -, hG, -⟩ := base_point hc
      have h1 := hall h hh G
      obtain ⟨Q, hQ⟩ := hpt _ h1 h.length
      simp only [exec, getRandomGenerator, imul, hL.generator, ← hG, hQ, hL.mul]
      exact hset _ h1 h.length _
  have hrun : ∀ (h : Heap), (∀ r < h.length, ∃ Q, Holds q c h r Q) →
      ∀ r < (run L c h calls).length, ∃ Q, Holds q c (run L c h calls) r Q := by
    clear hr
    induction calls with
    | nil => intro h hh; exact hh
    | cons call rest ih =>
      intro h hh
      exact ih _ (hstep h hh call)
  exact hrun [] (by simp) r hr

/-- **C118, random generators**.  `GetRandomGenerator` gives a new object whose point is never
infinity and generates the whole curve; each point other than infinity comes from exactly one of
`order - 1` equally likely words; the generator of the library is not changed (`C118_frame`). -/
theorem C118_generator (hc : c.Certified q gx gy) {L : PointLib} (hL : LibOk L c q gx gy)
    (h : Heap) :
    (∀ w, ∃ Q h', getRandomGenerator L c h w = (.ok h.length, h') ∧ Holds q c h' h.length Q ∧
      Q ≠ 0 ∧ ∀ P : (c.W q).Point, ∃ k : Int, P = k • Q) ∧
    ∀ Q : (c.W q).Point, Q ≠ 0 → ∃! w : Nat, w < c.order - 1 ∧
      Holds q c (getRandomGenerator L c h w).2 h.length Q := by
  obtain ⟨G, hG0, hG, hord, hgen⟩ := base_point hc
  have hp : Fact c.order.Prime := ⟨hc.prime⟩
  have h2 := hc.prime.two_le
  have heq : ∀ w : Nat, ∃ h', getRandomGenerator L c h w = (.ok h.length, h') ∧
      Holds q c h' h.length (((w : Int) % ((c.order : Int) - 1) + 1) • G) := by
    intro w
    obtain ⟨-, h', e1, e2, -⟩ := C118_mul hL (h := h ++ [L.generator]) (r := h.length) (Q := G)
      (by rw [hL.generator, ← hG]; exact holds_new h G) ((w : Int) % ((c.order : Int) - 1) + 1)
    exact ⟨h', e1, e2⟩
  have hne : ∀ k : Int, 0 < k → k < c.order → k • G ≠ 0 := by
    intro k h0 h1 he
    have := addOrderOf_dvd_iff_zsmul_eq_zero.2 he
    rw [hord] at this
    have := Int.le_of_dvd h0 this
    omega
  constructor
  · intro w
    obtain ⟨h', e1, e2⟩ := heq w
    have hnz : ((w : Int) % ((c.order : Int) - 1) + 1) • G ≠ 0 := by
      have a1 := Int.emod_nonneg (w : Int) (by omega : (c.order : Int) - 1 ≠ 0)
      have a2 := Int.emod_lt_of_pos (w : Int) (by omega : 0 < (c.order : Int) - 1)
      exact hne _ (by omega) (by omega)
    refine ⟨_, h', e1, e2, hnz, fun P => ?_⟩
    obtain ⟨k, hk⟩ := mem_zmultiples_of_prime_card hc.card hnz (g' := P)
    exact ⟨k, hk.symm⟩
  · intro Q hQ
    obtain ⟨k, rfl⟩ := hgen Q
    have hval : ∀ w : Nat, w < c.order - 1 →
        Holds q c (getRandomGenerator L c h w).2 h.length (((w : Int) + 1) • G) := by
      intro w hw
      obtain ⟨h', e1, e2⟩ := heq w
      rw [e1]
      rwa [Int.emod_eq_of_lt (by omega) (by omega)] at e2
    have huniq : ∀ {h' : Heap} {r : Nat} {A B : (c.W q).Point}, Holds q c h' r A →
        Holds q c h' r B → A = B := by
      intro h' r A B hA hB
      exact ofPoint_inj (Option.some.inj (hA.symm.trans hB))
    have hmod : (k % c.order) • G = k • G := by
      rw [← hord]
      exact mod_addOrderOf_zsmul G k
    have hk0 : k % c.order ≠ 0 := by
      intro e
      rw [e, zero_zsmul] at hmod
      exact hQ hmod.symm
    have a1 := Int.emod_nonneg k (by omega : (c.order : Int) ≠ 0)
    have a2 := Int.emod_lt_of_pos k (by omega : (0 : Int) < c.order)
    refine ⟨(k % c.order - 1).toNat, ⟨by omega, ?_⟩, ?_⟩
    · have := hval (k % c.order - 1).toNat (by omega)
      rwa [Int.toNat_of_nonneg (by omega), sub_add_cancel, hmod] at this
    · rintro w ⟨hw, hw'⟩
      have e := huniq (hval w hw) hw'
      have hd : ((w : Int) + 1 - k) • G = 0 := by rw [sub_zsmul, e, add_neg_cancel]
      have hdv := addOrderOf_dvd_iff_zsmul_eq_zero.2 hd
      rw [hord] at hdv
      have : ((w : Int) + 1) % c.order = k % c.order :=
        Int.emod_eq_emod_iff_emod_sub_eq_zero.2 (Int.emod_eq_zero_of_dvd hdv)
      rw [Int.emod_eq_of_lt (by omega) (by omega)] at this
      omega

/-- The bytes of a point other than infinity start with 2 or 3, and are decoded to it. -/
theorem encode_point (hc : c.Certified q gx gy) (L : PointLib) {Q : (c.W q).Point} (hQ : Q ≠ 0) :
    ∃ bs, getAsBytes L.toLib c (c.ofPoint Q) = bs ∧ c.oct2point bs = some (c.ofPoint Q) ∧
      bs.head? ≠ some 0 ∧ bs ≠ [] := by
  cases Q with
  | zero => exact absurd rfl hQ
  | some x y h =>
    obtain ⟨bs, h1, h2⟩ := hc.proper.oct2point_point2oct (ofPoint_onCurve hc.proper x y h)
    refine ⟨bs, ?_, h2, ?_, ?_⟩
    · show (c.point2oct (.aff (x.val : Int) (y.val : Int))).getD _ = bs
      rw [h1]
      rfl
    · rw [point2oct, Option.some.injEq] at h1
      rw [← h1, List.head?_cons]
      rcases Nat.mod_two_eq_zero_or_one (y.val : Int).toNat with e | e <;> rw [e] <;> decide
    · rintro rfl
      simp [point2oct] at h1

/-- **C118, numbers and bytes**.  A point object made from `GetAsLong()` or `GetAsBytes()` of another
holds the same point, unless that was infinity; then it is refused. -/
theorem C118_roundtrip (hc : c.Certified q gx gy) {L : PointLib} (hL : LibOk L c q gx gy)
    {h : Heap} {r : Nat} {Q : (c.W q).Point} (hr : Holds q c h r Q) :
    (Q ≠ 0 → ∃ h', newFromLongOrBytes L c h (.int (getAsLong L c h r)) = (.ok h.length, h') ∧
      Holds q c h' h.length Q) ∧
    (Q ≠ 0 → ∃ h', newFromLongOrBytes L c h (.bytes (getAsBytes L.toLib c (h.pt r))) =
      (.ok h.length, h') ∧ Holds q c h' h.length Q) ∧
    (Q = 0 → L.infBytes = [0] ∨ L.infBytes = [] →
      ∃ e, newFromLongOrBytes L c h (.int (getAsLong L c h r)) = (.raises e, h)) := by
  have hdec : ∀ bs P, c.oct2point bs = some P → Py.fromBytes L.toLib c bs = .ok P := by
    intro bs P hP
    rcases py_decode (L := L.toLib) hL.decode bs with ⟨P', d1, d2⟩ | ⟨d1, -⟩
    · rw [hP] at d1
      cases d1
      exact d2
    · rw [hP] at d1
      cases d1
  refine ⟨fun hQ => ?_, fun hQ => ?_, ?_⟩
  · obtain ⟨bs, h1, h2, h3, h4⟩ := encode_point hc L hQ
    have hpos : 0 < BN.ofBytes bs := by
      rcases lt_or_eq_of_le (BN.ofBytes_nonneg bs) with e | e
      · exact e
      · have := natToBytes_of_head h3
        rw [← e] at this
        exact absurd this.symm h4
    refine ⟨h ++ [c.ofPoint Q], ?_, holds_new h Q⟩
    rw [getAsLong, hr.pt, h1, bytesToLong_eq, newFromLongOrBytes]
    rw [longToBytes_pos hpos, natToBytes_of_head h3]
    simp only
    rw [hdec bs _ h2]
    rfl
  · obtain ⟨bs, h1, h2, -⟩ := encode_point hc L hQ
    refine ⟨h ++ [c.ofPoint Q], ?_, holds_new h Q⟩
    rw [hr.pt, h1, newFromLongOrBytes]
    rw [hdec bs _ h2]
    rfl
  · rintro rfl hinf
    have h0 : getAsLong L c h r = 0 := by
      rw [getAsLong, hr.pt, bytesToLong_eq]
      show BN.ofBytes ((c.point2oct .inf).getD L.infBytes) = 0
      rw [point2oct, Option.getD_none]
      rcases hinf with e | e <;> rw [e] <;> decide
    rw [h0, newFromLongOrBytes]
    simp only [longToBytes_zero]
    rcases py_decode (L := L.toLib) hL.decode [0] with ⟨P, d1, -⟩ | ⟨-, ⟨P, ⟨t, rest, e, ht, -⟩, -⟩ | d | ⟨-, d⟩⟩
    · simp [oct2point] at d1
    · simp only [List.cons.injEq] at e
      rw [← e.1] at ht
      exact absurd ht (by decide)
    · exact ⟨_, by rw [d]; rfl⟩
    · exact ⟨_, by rw [d]; rfl⟩

/-- **C118, coordinates**: `FromPoint` takes exactly the coordinates of points of the curve. -/
theorem C118_fromPoint (hc : c.Certified q gx gy) (h : Heap) (x y : Int) :
    (IsPoint c.p c.a c.b x y → ∃ h' Q, newFromPoint c h x y = (.ok h.length, h') ∧
      Holds q c h' h.length Q ∧ c.ofPoint Q = .aff x y) ∧
    (¬ IsPoint c.p c.a c.b x y → ∃ e, newFromPoint c h x y = (.raises e, h)) := by
  constructor
  · intro hp
    have hon := (isPoint_iff _ _ _).2 hp
    obtain ⟨Q, -, h2, -⟩ := toPoint_of_onCurve hc.proper hc.smooth hon
    refine ⟨h ++ [c.ofPoint Q], Q, ?_, holds_new h Q, h2⟩
    obtain ⟨hx0, -, hy0, -⟩ := (c.onCurve_iff x y).1 hon
    rw [newFromPoint, if_neg (by omega), Py.fromPoint, if_pos hon, checkValidity]
    simp [isOnCurve, hon, Curve.isAtInfinity, alloc, h2]
  · intro hp
    have hon : ¬ c.onCurve x y = true := fun h => hp ((isPoint_iff _ _ _).1 h)
    rw [newFromPoint]
    split_ifs
    · exact ⟨_, rfl⟩
    · exact ⟨.assertionError, by rw [Py.fromPoint, if_neg hon]; rfl⟩

/-- **C118, infinity**: `GetPointAtInfinity` gives a new object with the neutral element. -/
theorem C118_infinity (h : Heap) :
    ∃ h', newInfinity h = (.ok h.length, h') ∧ Holds q c h' h.length (0 : (c.W q).Point) ∧
      ∀ r, r < h.length → h'[r]? = h[r]? :=
  ⟨h ++ [.inf], rfl, by simp [Holds, ofPoint], fun _ hr => List.getElem?_append_left hr⟩

/-- **C118, plain numbers**: `point * 5` with a Python number is not a multiple: the library takes 5
for the address of a number. -/
theorem C118_plain_number_fails (L : PointLib) (h : Heap) (r : Nat) (n : Int) :
    mul L h r (.int n) = (.ub, h) ∧ imul L h r (.int n) = (.ub, h) := ⟨rfl, rfl⟩

/-! ### The hypotheses can be met -/

open Classical in
/-- A library for a curve. -/
noncomputable def libOf (c : Curve) (q : Nat) [Fact q.Prime] (gx gy : Int)
    (sqrt : BigNum → BigNum → Res BigNum) : PointLib where
  oct2point := c.oct2point
  acceptsKey := fun _ => true
  sqrt := sqrt
  mul := mulRaw c q
  infBytes := [0]
  add := fun P Q => match c.toPoint? q P, c.toPoint? q Q with
    | some A, some B => c.ofPoint (A + B)
    | _, _ => .inf
  generator := .aff gx gy

theorem libOf_ok (c : Curve) (q : Nat) [Fact q.Prime] (gx gy : Int)
    (sqrt : BigNum → BigNum → Res BigNum) : LibOk (libOf c q gx gy sqrt) c q gx gy where
  mul k Q := mulRaw_of (toPoint_ofPoint c Q) k
  add P Q := by
    show (match c.toPoint? q (c.ofPoint P), c.toPoint? q (c.ofPoint Q) with
      | some A, some B => c.ofPoint (A + B)
      | _, _ => .inf) = _
    rw [toPoint_ofPoint, toPoint_ofPoint]
  generator := rfl
  decode := Or.inl rfl

/-- P-256 with its base point as an object, and twice the point by `+=` of the object to itself. -/
example [Fact q256.Prime] : ∃ h' G, newFromPoint p256 [] p256Gx p256Gy = (.ok 0, h') ∧
    Holds q256 p256 h' 0 G ∧
    ∃ h'', iadd (libOf p256 q256 p256Gx p256Gy (powSqrt 256)) h' 0 (.point 0) = (.ok 0, h'') ∧
      Holds q256 p256 h'' 0 (G + G) := by
  obtain ⟨h', G, h1, h2, -⟩ := (C118_fromPoint p256_certified [] p256Gx p256Gy).1
    ((isPoint_iff _ _ _).1 p256_certified.base)
  obtain ⟨-, h'', h3, h4, -⟩ := C118_add (libOf_ok p256 q256 p256Gx p256Gy (powSqrt 256)) h2 h2
  exact ⟨h', G, h1, h2, h'', h3, h4⟩

end PJC.Py.Pt
