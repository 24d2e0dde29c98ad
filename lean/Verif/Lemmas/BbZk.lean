import Verif.Lemmas.StatBad
import Verif.Props.BbSig
import Verif.Props.ZeroKnowledge
set_option linter.unusedSectionVars false
/-
Simulated request proofs of the oblivious signature: definitions, and the real proofs as shifted
draws.
-/
namespace PJC.Bb
open PJC.DJ PJC.Props PJC.Stat

variable {G : Type} [AddCommGroup G] [DecidableEq G]

/-- The vectors of masks of a request proof, with one mask for each message. -/
inductive VecMask
  | messages | rs | as | asOpen | bs | alphas | gammas
  deriving DecidableEq

instance : Fintype VecMask :=
  ⟨{.messages, .rs, .as, .asOpen, .bs, .alphas, .gammas}, by intro x; cases x <;> decide⟩

/-- The single masks of a request proof. -/
inductive OneMask
  | messagesOpen | rsOpen | bsOpen | alphasOpen1 | alphasOpen2 | gammasOpen1 | gammasOpen2
  deriving DecidableEq

instance : Fintype OneMask :=
  ⟨{.messagesOpen, .rsOpen, .bsOpen, .alphasOpen1, .alphasOpen2, .gammasOpen1, .gammasOpen2}, by
    intro x; cases x <;> decide⟩

/-- All masks of a request proof for `L` messages in `K` ciphertexts: the vectors, the single ones,
and one for the randomness of each ciphertext. -/
abbrev ReqMask (L K : Nat) := VecMask × Fin L ⊕ OneMask ⊕ Fin K

/-- Specification: the bounds below which the masks are drawn (bb_oblivious_signature.cc:401-471). -/
def reqBounds (v : BbSig G) (n : Int) (N L K : Nat) : ReqMask L K → Nat :=
  let q := v.group.order
  let T := 2 ^ (v.params.chal + v.params.sec).toNat
  fun
    | .inl (.messages, _) => q * T
    | .inl (.rs, _) => q * T
    | .inl (.as, _) => q * T
    | .inl (.asOpen, _) => n.toNat * T
    | .inl (.bs, _) => q * q * T * T
    | .inl (.alphas, _) => q * T * q
    | .inl (.gammas, _) => q * T * q
    | .inr (.inl .alphasOpen1) => n.toNat * T * q * (L + 1)
    | .inr (.inl .gammasOpen1) => n.toNat * T * q * (L + 1)
    | .inr (.inl _) => n.toNat * T
    | .inr (.inr _) => N * T

/-- A vector of draws as the function that the model takes. -/
def drawFn {L : Nat} (f : Fin L → Nat) : Nat → Nat := fun i => if h : i < L then f ⟨i, h⟩ else 0

/-- The draws `d` with the masks replaced by `a`. -/
def remask {L K : Nat} (d : ReqDraws) (a : ReqMask L K → Nat) : ReqDraws :=
  { d with
    messages := drawFn fun i => a (.inl (.messages, i))
    rs := drawFn fun i => a (.inl (.rs, i))
    as := drawFn fun i => a (.inl (.as, i))
    asOpen := drawFn fun i => a (.inl (.asOpen, i))
    bs := drawFn fun i => a (.inl (.bs, i))
    alphas := drawFn fun i => a (.inl (.alphas, i))
    gammas := drawFn fun i => a (.inl (.gammas, i))
    messagesOpen := a (.inr (.inl .messagesOpen))
    rsOpen := a (.inr (.inl .rsOpen))
    bsOpen := a (.inr (.inl .bsOpen))
    alphasOpen1 := a (.inr (.inl .alphasOpen1))
    alphasOpen2 := a (.inr (.inl .alphasOpen2))
    gammasOpen1 := a (.inr (.inl .gammasOpen1))
    gammasOpen2 := a (.inr (.inl .gammasOpen2))
    dummyEnc := drawFn fun j => a (.inr (.inr j)) }

/-- A vector of numbers, serialized. -/
def natVec {L : Nat} (f : Fin L → Nat) : List Bytes := List.ofFn fun i => BN.natToBytes (f i)

/-- Specification: a simulated request proof, from the commitments, the challenge and responses
chosen without knowing any secret. -/
def simRequest {L K : Nat} (commitAs : List Bytes) (commitBs commitAlphas commitGammas : Bytes)
    (c : Nat) (a : ReqMask L K → Nat) : BbReqProof :=
  ⟨commitAs, commitBs, commitAlphas, commitGammas, BN.natToBytes c,
    { messages := natVec fun i => a (.inl (.messages, i))
      messagesOpen := BN.natToBytes (a (.inr (.inl .messagesOpen)))
      rs := natVec fun i => a (.inl (.rs, i))
      rsOpen := BN.natToBytes (a (.inr (.inl .rsOpen)))
      as := natVec fun i => a (.inl (.as, i))
      asOpen := natVec fun i => a (.inl (.asOpen, i))
      bs := natVec fun i => a (.inl (.bs, i))
      bsOpen := BN.natToBytes (a (.inr (.inl .bsOpen)))
      alphas := natVec fun i => a (.inl (.alphas, i))
      alphasOpen1 := BN.natToBytes (a (.inr (.inl .alphasOpen1)))
      alphasOpen2 := BN.natToBytes (a (.inr (.inl .alphasOpen2)))
      gammas := natVec fun i => a (.inl (.gammas, i))
      gammasOpen1 := BN.natToBytes (a (.inr (.inl .gammasOpen1)))
      gammasOpen2 := BN.natToBytes (a (.inr (.inl .gammasOpen2)))
      enc := natVec fun j => a (.inr (.inr j)) }⟩

/-! ### The real proof -/

/-- A vector of numbers. -/
def intVec {L : Nat} (f : Fin L → Nat) : List Int := List.ofFn fun i => (f i : Int)

theorem intVec_length {L : Nat} (f : Fin L → Nat) : (intVec f).length = L := by simp [intVec]

theorem intVec_nonneg {L : Nat} (f : Fin L → Nat) : ∀ x ∈ intVec f, 0 ≤ x := by
  intro x hx
  obtain ⟨i, rfl⟩ := List.mem_ofFn.1 hx
  omega

theorem vecB_intVec {L : Nat} (f : Fin L → Nat) : vecB (intVec f) = natVec f := by
  simp only [vecB, intVec, natVec, List.map_ofFn]
  congr 1

theorem encB_nat (k : Nat) : encB (k : Int) = BN.natToBytes k := by simp [encB]

/-- The exponents made of draws. -/
def witOf {L K : Nat} (a : ReqMask L K → Nat) : Witness :=
  { messages := intVec fun i => a (.inl (.messages, i))
    rs := intVec fun i => a (.inl (.rs, i))
    as := intVec fun i => a (.inl (.as, i))
    asOpen := intVec fun i => a (.inl (.asOpen, i))
    bs := intVec fun i => a (.inl (.bs, i))
    alphas := intVec fun i => a (.inl (.alphas, i))
    gammas := intVec fun i => a (.inl (.gammas, i))
    enc := intVec fun j => a (.inr (.inr j))
    messagesOpen := a (.inr (.inl .messagesOpen))
    rsOpen := a (.inr (.inl .rsOpen))
    bsOpen := a (.inr (.inl .bsOpen))
    alphasOpen1 := a (.inr (.inl .alphasOpen1))
    alphasOpen2 := a (.inr (.inl .alphasOpen2))
    gammasOpen1 := a (.inr (.inl .gammasOpen1))
    gammasOpen2 := a (.inr (.inl .gammasOpen2)) }

theorem witOf_ok {L K : Nat} (a : ReqMask L K → Nat) : WitOk L K (witOf a) := by
  constructor <;>
    first
    | exact ⟨intVec_length _, intVec_nonneg _⟩
    | exact Int.natCast_nonneg _

theorem m2P_witOf {L K : Nat} (ca : List Bytes) (cb cal cg : Bytes) (c : Nat)
    (a : ReqMask L K → Nat) :
    (⟨ca, cb, cal, cg, encB (c : Int), m2P (witOf a)⟩ : BbReqProof) =
      simRequest ca cb cal cg c a := by
  simp only [m2P, witOf, vecB_intVec, encB_nat, simRequest]

theorem drawP_drawFn {L : Nat} {b : Int} {f : Fin L → Nat} (h : ∀ i, (f i : Int) < b) :
    drawP L b (drawFn f) = intVec f := by
  apply List.ext_getElem
  · simp [drawP, intVec]
  · intro i h1 h2
    have hi : i < L := by simpa [intVec] using h2
    simp only [drawP, intVec, drawFn, List.getElem_map, List.getElem_range, List.getElem_ofFn, hi,
      dif_pos]
    exact Int.emod_eq_of_lt (by omega) (h _)

variable {gs : List Int} {h n : Int} {N s : Nat} {g : Int} {ys : List Int} {v : BbSig G}

theorem Made.dummyP_remask (M : Made gs h n N s g ys v) {L : Nat} (d : ReqDraws)
    {a : ReqMask L (numCts L ys.length) → Nat}
    (ha : a ∈ Box (reqBounds v n N L (numCts L ys.length))) :
    dummyP v n N ys.length L (remask d a) = witOf a := by
  rw [mem_box] at ha
  have hn : ((n.toNat : Nat) : Int) = n := Int.toNat_of_nonneg M.n0.le
  have key : ∀ i, (a i : Int) < (reqBounds v n N L (numCts L ys.length) i : Int) := by
    intro i
    exact_mod_cast ha i
  have hv : ∀ (m : VecMask) (b : Int),
      (∀ i : Fin L, (reqBounds v n N L (numCts L ys.length) (.inl (m, i)) : Int) = b) →
      drawP L b (drawFn fun i => a (.inl (m, i))) = intVec fun i => a (.inl (m, i)) := by
    intro m b hb
    apply drawP_drawFn
    intro i
    rw [← hb i]
    exact key _
  have ho : ∀ (m : OneMask) (b : Int),
      (reqBounds v n N L (numCts L ys.length) (.inr (.inl m)) : Int) = b →
      (a (.inr (.inl m)) : Int) % b = a (.inr (.inl m)) := by
    intro m b hb
    rw [← hb]
    exact Int.emod_eq_of_lt (by omega) (key _)
  have he : drawP (numCts L ys.length) (N * 2 ^ tBits v) (drawFn fun j => a (.inr (.inr j))) =
      intVec fun j => a (.inr (.inr j)) := by
    apply drawP_drawFn
    intro j
    have := key (.inr (.inr j))
    simp only [reqBounds] at this
    push_cast at this
    exact this
  have e1 := hv .messages (v.group.order * 2 ^ tBits v) (fun i => by simp [reqBounds, tBits])
  have e2 := hv .rs (v.group.order * 2 ^ tBits v) (fun i => by simp [reqBounds, tBits])
  have e3 := hv .as (v.group.order * 2 ^ tBits v) (fun i => by simp [reqBounds, tBits])
  have e4 := hv .asOpen (n * 2 ^ tBits v) (fun i => by simp [reqBounds, tBits, M.n0.le])
  have e5 := hv .bs (v.group.order * v.group.order * 2 ^ tBits v * 2 ^ tBits v)
    (fun i => by simp [reqBounds, tBits])
  have e6 := hv .alphas (v.group.order * 2 ^ tBits v * v.group.order)
    (fun i => by simp [reqBounds, tBits])
  have e7 := hv .gammas (v.group.order * 2 ^ tBits v * v.group.order)
    (fun i => by simp [reqBounds, tBits])
  have o1 := ho .messagesOpen (n * 2 ^ tBits v) (by simp [reqBounds, tBits, M.n0.le])
  have o2 := ho .rsOpen (n * 2 ^ tBits v) (by simp [reqBounds, tBits, M.n0.le])
  have o3 := ho .bsOpen (n * 2 ^ tBits v) (by simp [reqBounds, tBits, M.n0.le])
  have o4 := ho .alphasOpen1 (n * 2 ^ tBits v * v.group.order * (L + 1 : Nat))
    (by simp [reqBounds, tBits, M.n0.le])
  have o5 := ho .alphasOpen2 (n * 2 ^ tBits v) (by simp [reqBounds, tBits, M.n0.le])
  have o6 := ho .gammasOpen1 (n * 2 ^ tBits v * v.group.order * (L + 1 : Nat))
    (by simp [reqBounds, tBits, M.n0.le])
  have o7 := ho .gammasOpen2 (n * 2 ^ tBits v) (by simp [reqBounds, tBits, M.n0.le])
  unfold dummyP remask witOf
  simp only [e1, e2, e3, e4, e5, e6, e7, o1, o2, o3, o4, o5, o6, o7, he]

/-- What masking adds to the draws: challenge times secret. -/
def reqShift {L K : Nat} (c : Nat) (w : Witness) : ReqMask L K → Nat
  | .inl (.messages, i) => c * (w.messages.getD i 0).toNat
  | .inl (.rs, i) => c * (w.rs.getD i 0).toNat
  | .inl (.as, i) => c * (w.as.getD i 0).toNat
  | .inl (.asOpen, i) => c * (w.asOpen.getD i 0).toNat
  | .inl (.bs, i) => c * (w.bs.getD i 0).toNat
  | .inl (.alphas, i) => c * (w.alphas.getD i 0).toNat
  | .inl (.gammas, i) => c * (w.gammas.getD i 0).toNat
  | .inr (.inl .messagesOpen) => c * w.messagesOpen.toNat
  | .inr (.inl .rsOpen) => c * w.rsOpen.toNat
  | .inr (.inl .bsOpen) => c * w.bsOpen.toNat
  | .inr (.inl .alphasOpen1) => c * w.alphasOpen1.toNat
  | .inr (.inl .alphasOpen2) => c * w.alphasOpen2.toNat
  | .inr (.inl .gammasOpen1) => c * w.gammasOpen1.toNat
  | .inr (.inl .gammasOpen2) => c * w.gammasOpen2.toNat
  | .inr (.inr j) => c * (w.enc.getD j 0).toNat

theorem mask_intVec {L : Nat} (c : Nat) (f : Fin L → Nat) {xs : List Int}
    (h : xs.length = L ∧ ∀ x ∈ xs, 0 ≤ x) :
    List.zipWith (fun d x => d + (c : Int) * x) (intVec f) xs =
      intVec fun i => f i + c * (xs.getD i 0).toNat := by
  apply List.ext_getElem
  · simp [intVec, h.1]
  · intro i h1 h2
    have hi : i < L := by simpa [intVec] using h2
    have hx : i < xs.length := by omega
    simp only [intVec, List.getElem_zipWith, List.getElem_ofFn, List.getD_eq_getElem?_getD,
      List.getElem?_eq_getElem hx, Option.getD_some]
    push_cast
    rw [Int.toNat_of_nonneg (h.2 _ (List.getElem_mem hx))]

theorem mask_witOf {L K : Nat} (c : Nat) (a : ReqMask L K → Nat) {w : Witness} (W : WitOk L K w) :
    Witness.mask (c : Int) (witOf a) w = witOf fun i => a i + reqShift c w i := by
  have e : ∀ (x : Nat) {y : Int}, 0 ≤ y → (x : Int) + c * y = ((x + c * y.toNat : Nat) : Int) := by
    intro x y hy
    push_cast
    rw [Int.toNat_of_nonneg hy]
  unfold Witness.mask witOf
  simp only [mask_intVec c _ W.messages, mask_intVec c _ W.rs, mask_intVec c _ W.as,
    mask_intVec c _ W.asOpen, mask_intVec c _ W.bs, mask_intVec c _ W.alphas,
    mask_intVec c _ W.gammas, mask_intVec c _ W.enc, e _ W.messagesOpen, e _ W.rsOpen,
    e _ W.bsOpen, e _ W.alphasOpen1, e _ W.alphasOpen2, e _ W.gammasOpen1, e _ W.gammasOpen2,
    reqShift]

/-- The secrets of an honest request, each small compared to its mask. -/
theorem Made.shift_small (M : Made gs h n N s g ys v) {ms rs : List Int} {om orr : Int}
    (d : ReqDraws) (hl : rs.length = ms.length) (hm : ∀ m ∈ ms, 0 ≤ m ∧ m < v.group.order)
    (hr : ∀ r ∈ rs, 0 ≤ r ∧ r < v.group.order) (ho : om < n) (ho' : orr < n) {c : Nat}
    (hc : c < 2 ^ v.params.chal.toNat) (i : ReqMask ms.length (numCts ms.length ys.length)) :
    reqShift c (secretP v n N ys.length ms rs om orr d) i * 2 ^ v.params.sec.toNat ≤
      1 * reqBounds v n N ms.length (numCts ms.length ys.length) i := by
  have hq := M.order
  have hn := M.n0
  have hN : (0 : Int) < N := by have := M.N1; omega
  have B := M.secretP_bound (om := om) (orr := orr) d (fun m hm' => (hm m hm').2)
    (fun m hm' => (hr m hm').2) ys.length
  set w := secretP v n N ys.length ms rs om orr d with hw
  have et : (v.params.chal + v.params.sec).toNat = v.params.chal.toNat + v.params.sec.toNat := by
    have := M.chal0; have := M.sec0; omega
  have hT : (2 : Nat) ^ (v.params.chal + v.params.sec).toNat =
      2 ^ v.params.chal.toNat * 2 ^ v.params.sec.toNat := by rw [et, pow_add]
  -- the common step
  have step : ∀ (x : Int) (X : Nat), x ≤ X →
      c * x.toNat * 2 ^ v.params.sec.toNat ≤ X * 2 ^ (v.params.chal + v.params.sec).toNat := by
    intro x X hx
    rw [hT]
    calc c * x.toNat * 2 ^ v.params.sec.toNat
        ≤ 2 ^ v.params.chal.toNat * X * 2 ^ v.params.sec.toNat :=
          Nat.mul_le_mul_right _ (Nat.mul_le_mul hc.le (by omega))
      _ = X * (2 ^ v.params.chal.toNat * 2 ^ v.params.sec.toNat) := by ring
  have lst : ∀ (l : List Int) (X : Nat), (∀ x ∈ l, x ≤ (X : Int)) → ∀ i : Nat, l.getD i 0 ≤ (X : Int) := by
    intro l X hX i
    by_cases hi : i < l.length
    · exact hX _ (getD_mem 0 hi)
    · rw [List.getD_eq_getElem?_getD, List.getElem?_eq_none (by omega)]
      simp
  have hos : ∀ o ∈ w.asOpen, 0 ≤ o ∧ o < n := by
    intro o ho
    obtain ⟨i, _, rfl⟩ := List.mem_map.1 ho
    exact ⟨Int.emod_nonneg _ hn.ne', Int.emod_lt_of_pos _ hn⟩
  have hnn : ((n.toNat : Nat) : Int) = n := Int.toNat_of_nonneg hn.le
  have sumB : ∀ (os xs : List Int), (∀ o ∈ os, 0 ≤ o ∧ o < n) →
      (∀ x ∈ xs, 0 ≤ x ∧ x < v.group.order) →
      (List.zipWith (· * ·) os xs).sum ≤ xs.length * (n * v.group.order) := by
    intro os
    induction os with
    | nil => intro xs _ _; simp; positivity
    | cons o os ih =>
      intro xs h1 h2
      cases xs with
      | nil => simp
      | cons x xs =>
        simp only [List.zipWith_cons_cons, List.sum_cons, List.length_cons]
        have h3 := ih xs (fun o ho => h1 o (by simp [ho])) (fun x hx => h2 x (by simp [hx]))
        have h4 := h1 o (by simp)
        have h5 := h2 x (by simp)
        have h6 : o * x ≤ n * v.group.order := mul_le_mul h4.2.le h5.2.le h5.1 hn.le
        push_cast
        linarith
  have nq : n ≤ n * v.group.order := le_mul_of_one_le_right hn.le (by omega)
  have hom : ∀ (x : Int) (xs : List Int), xs.length = ms.length →
      (∀ y ∈ xs, 0 ≤ y ∧ y < v.group.order) → x < n →
      x + (List.zipWith (· * ·) w.asOpen xs).sum ≤
        ((n.toNat * v.group.order * (ms.length + 1) : Nat) : Int) := by
    intro x xs h1 h2 h3
    have := sumB w.asOpen xs hos h2
    rw [h1] at this
    push_cast
    rw [hnn]
    linarith
  have em : ∀ x : Nat, (x : Int) % n < n := fun x => Int.emod_lt_of_pos _ hn
  rw [one_mul]
  rcases i with ⟨m, i⟩ | m | j
  · cases m <;> simp only [reqShift, reqBounds]
    · exact step _ _ (lst _ _ (fun x hx => (hm x hx).2.le) _)
    · exact step _ _ (lst _ _ (fun x hx => (hr x hx).2.le) _)
    · exact step _ _ (lst _ _ B.as _)
    · exact step _ _ (lst _ _ (fun x hx => by rw [hnn]; exact (hos x hx).2.le) _)
    · exact step _ _ (lst _ _ (fun x hx => by
        have := B.bs x hx
        push_cast
        exact this) _)
    · have := step _ (v.group.order * v.group.order) (lst _ _ (fun x hx => by
        have := B.alphas x hx
        push_cast
        exact this) i)
      calc _ ≤ _ := this
        _ = _ := by ring
    · have := step _ (v.group.order * v.group.order) (lst _ _ (fun x hx => by
        have := B.gammas x hx
        push_cast
        exact this) i)
      calc _ ≤ _ := this
        _ = _ := by ring
  · cases m <;> simp only [reqShift, reqBounds]
    · exact step _ _ (by rw [hnn]; exact ho.le)
    · exact step _ _ (by rw [hnn]; exact ho'.le)
    · exact step _ _ (by rw [hnn]; exact (em _).le)
    · have := step _ _ (hom ((d.openAlphas : Int) % n) ms rfl hm (em _))
      calc _ ≤ _ := this
        _ = _ := by ring
    · exact step _ _ (by rw [hnn]; exact (em _).le)
    · have := step _ _ (hom ((d.openGammas : Int) % n) rs hl hr (em _))
      calc _ ≤ _ := this
        _ = _ := by ring
    · exact step _ _ (by rw [hnn]; exact (em _).le)
  · simp only [reqShift, reqBounds]
    exact step _ _ (lst _ _ (fun x hx => (drawP_bounds hN x hx).2.le) _)

end PJC.Bb
