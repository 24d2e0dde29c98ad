import Verif.Props.DyPrf
import Verif.Props.BbSig
set_option linter.unusedSectionVars false
/-
C129: Boneh-Boyen signatures on messages of the forger's choice with random nonces cannot be forged,
unless the strong Diffie-Hellman problem of the curve can be solved.

Specification.  In the game a generator and the two keys are drawn as the library draws them; a forger
asks for signatures on messages of its choice, one after the other, each with a nonce that is drawn
when the message is known; it wins with a signature on a pair that it was not given one for.  `sdh` is
the probability that an algorithm that is given `P, αP, ..., α^q P` finds a `c` and `1/(α + c) P`.
-/
namespace PJC.BbForge
open PJC PJC.Props PJC.Prob PJC.Protocol PJC.DyPrf Polynomial

variable {G : Type} [AddCommGroup G] [DecidableEq G]

/-! ### Specification -/

/-- The signature on `(m, r)` with the keys `k`, `y`, if there is one (bb_oblivious_signature.h:41-45);
see `bbSign_iff`. -/
def bbSign (E : EcGroup G) (base : G) (k y m r : ZMod E.order) : Option G :=
  if m + k + y * r = 0 then none else some (((m + k + y * r)⁻¹.val : Int) • base)

/-- A forger: it is shown the generator, its coins, and the nonces and signatures so far, and chooses
the next message; in the end it chooses a message, a nonce and a signature. -/
structure Forger (E : EcGroup G) (C : Type) where
  ask : G → C → List (ZMod E.order × Option G) → ZMod E.order
  out : G → C → List (ZMod E.order × Option G) → ZMod E.order × ZMod E.order × G

/-- The messages of the first `n` questions, with nonce and answer. -/
def talk {E : EcGroup G} {C : Type} (F : Forger E C) (base : G) (c : C)
    (answer : Nat → ZMod E.order → ZMod E.order × Option G) :
    Nat → List (ZMod E.order × ZMod E.order × Option G)
  | 0 => []
  | n + 1 =>
    let before := talk F base c answer n
    let m := F.ask base c (before.map Prod.snd)
    before ++ [(m, answer n m)]

/-- The nonce of the `i`-th question. -/
def nth {E : EcGroup G} {N : Nat} (rs : Fin N → ZMod E.order) (i : Nat) : ZMod E.order :=
  if h : i < N then rs ⟨i, h⟩ else 0

/-- What the forger sees of a signer with keys `k` and `y` and nonces `rs`. -/
def signed {E : EcGroup G} {C : Type} (F : Forger E C) {N : Nat} (base : G) (k y : ZMod E.order)
    (rs : Fin N → ZMod E.order) (c : C) : List (ZMod E.order × ZMod E.order × Option G) :=
  talk F base c (fun i m => (nth rs i, bbSign E base k y m (nth rs i))) N

/-- The forger wins: its signature is right, and it has not asked for this message with this nonce. -/
def Forges {E : EcGroup G} {C : Type} (F : Forger E C) {N : Nat} (base : G) (k y : ZMod E.order)
    (rs : Fin N → ZMod E.order) (c : C) : Prop :=
  let seen := signed F base k y rs c
  let o := F.out base c (seen.map Prod.snd)
  bbSign E base k y o.1 o.2.1 = some o.2.2 ∧ ∀ e ∈ seen, ¬ (e.1 = o.1 ∧ e.2.1 = o.2.1)

instance {E : EcGroup G} {C : Type} (F : Forger E C) {N : Nat} (base : G) (k y : ZMod E.order)
    (rs : Fin N → ZMod E.order) (c : C) : Decidable (Forges F base k y rs c) := by
  unfold Forges; infer_instance

/-- The probability that the forger wins with `N` questions; generator, keys, nonces and coins are
uniform. -/
def forgeProb (E : EcGroup G) [NeZero E.order] (N : Nat) {C : Type} [Fintype C] (F : Forger E C) : ℚ :=
  prob fun t : Draw E × Draw E × Draw E × (Fin N → ZMod E.order) × C =>
    Forges F (t.1.point E) (t.2.1.scalar : ZMod E.order) (t.2.2.1.scalar : ZMod E.order) t.2.2.2.1
      t.2.2.2.2

/-- An algorithm that is given `q + 1` points. -/
abbrev SdhAlg (E : EcGroup G) (q : Nat) (C : Type) : Type := (Fin (q + 1) → G) → C → ZMod E.order × G

/-- The probability that the algorithm finds a `c` and `1/(α + c) P`, given `P, αP, ..., α^q P`. -/
def sdhProb (E : EcGroup G) (q : Nat) {C : Type} [Fintype C] (B : SdhAlg E q C) : ℚ :=
  prob fun t : Draw E × Draw E × C =>
    let o := B (fun e => t.1.scalar ^ e.val • t.2.1.point E) t.2.2
    (t.1.scalar + (o.1.val : Int)) • o.2 = t.2.1.point E

/-! ### The two algorithms

Both search through finitely many candidates for `α` (`choose`); polynomials are lists of coefficients
that can be computed from the drawn values. -/

section
variable (E : EcGroup G) {N : Nat} {C : Type}

/-- The product of `X + w_i` over `i` in `S`. -/
noncomputable def roots (S : Finset (Fin N)) (ws : Fin N → ZMod E.order) : (ZMod E.order)[X] :=
  ∏ i ∈ S, (X + Polynomial.C (ws i))

/-- The solution of who knows `α`. -/
noncomputable def solved {q : Nat} (a : ZMod E.order) (P : Fin (q + 1) → G) : ZMod E.order × G :=
  (0, ((a⁻¹).val : Int) • P 0)

/-- The first algorithm plays the signer with the key `k = α`, of which it knows `αP` only: it draws
the values `w_i = m_i + y r_i` in advance, shows the generator `f(α) P` where `f` is the product of all
`X + w_i`, and answers with the quotients.  A forgery with a new value is divided by `f`. -/
noncomputable def newValue (F : Forger E C) :
    SdhAlg E (N + 1) (Draw E × (Fin N → ZMod E.order) × C) := fun P t =>
  let y : ZMod E.order := (t.1.scalar : ZMod E.order)
  let ws := t.2.1
  open Classical in
  if h : ∃ i, polyPoint E (X + Polynomial.C (ws i)) P = 0 then solved E (-ws h.choose) P else
  let f := roots E Finset.univ ws
  let base := polyPoint E f P
  let seen := talk F base t.2.2 (fun i m => ((nth ws i - m) * y⁻¹,
    if h : i < N then some (polyPoint E (roots E (Finset.univ.erase ⟨i, h⟩) ws) P) else none)) N
  if h : ∃ m, (∃ e ∈ seen, e.1 = m) ∧ polyPoint E (X + Polynomial.C m) P = 0 then
    solved E (-h.choose) P else
  let o := F.out base t.2.2 (seen.map Prod.snd)
  let w := o.1 + y * o.2.1
  (w, (((f.eval (-w))⁻¹).val : Int) • (o.2.2 - polyPoint E (f /ₘ (X - Polynomial.C (-w))) P))

/-- The second algorithm plays the signer with the key `y = α`: it draws `u_i = (k + m_i) / r_i` in
advance and shows the generator `f(α) P` where `f` is the product of the `X + u_i` with `u_i ≠ 0`.  A
forgery with an old value gives `α`. -/
noncomputable def oldValue (F : Forger E C) :
    SdhAlg E (N + 1) (Draw E × (Fin N → ZMod E.order) × C) := fun P t =>
  let k : ZMod E.order := (t.1.scalar : ZMod E.order)
  let us := t.2.1
  let S := Finset.univ.filter fun i => us i ≠ 0
  open Classical in
  if h : ∃ i, polyPoint E (X + Polynomial.C (us i)) P = 0 then solved E (-us h.choose) P else
  let base := polyPoint E (roots E S us) P
  let seen := talk F base t.2.2 (fun i m => ((m + k) * (nth us i)⁻¹,
    if h : i < N then some (if us ⟨i, h⟩ = 0 then (((m + k)⁻¹).val : Int) • base else
      ((us ⟨i, h⟩ * (m + k)⁻¹).val : Int) • polyPoint E (roots E (S.erase ⟨i, h⟩) us) P) else none)) N
  let o := F.out base t.2.2 (seen.map Prod.snd)
  if h : ∃ a, (∃ e ∈ seen, a = (o.1 - e.1) * (e.2.1 - o.2.1)⁻¹) ∧
      polyPoint E (X - Polynomial.C a) P = 0 then solved E h.choose P
  else (0, 0)

end

/-! ### Proof -/

section
variable {E : EcGroup G} {N : Nat} {C : Type} [hE : Fact E.Lawful]

theorem prob_le_inj {α β : Type} [Fintype α] [Fintype β] (S : α → Prop) (T : β → Prop)
    [DecidablePred S] [DecidablePred T] (e : α → β) (he : Function.Injective e)
    (hc : Fintype.card α = Fintype.card β) (h : ∀ a, S a → T (e a)) : prob S ≤ prob T := by
  unfold prob
  rw [hc]
  apply div_le_div_of_nonneg_right _ (by positivity)
  exact_mod_cast Finset.card_le_card_of_injOn e (fun a ha => by
    simp only [Finset.coe_filter, Finset.mem_univ, true_and, Set.mem_ofPred_eq] at ha ⊢
    exact h a ha) he.injOn

theorem roots_degree (S : Finset (Fin N)) (ws : Fin N → ZMod E.order) :
    (roots E S ws).natDegree ≤ N := by
  unfold roots
  refine (natDegree_prod_le _ _).trans ((Finset.sum_le_card_nsmul _ _ 1 fun i _ => ?_).trans ?_)
  · exact (natDegree_X_add_C _).le
  · simpa using Finset.card_le_univ S

theorem roots_eval (S : Finset (Fin N)) (ws : Fin N → ZMod E.order) (a : ZMod E.order) :
    (roots E S ws).eval a = ∏ i ∈ S, (a + ws i) := by
  unfold roots
  rw [eval_prod]
  simp

theorem roots_erase {S : Finset (Fin N)} {ws : Fin N → ZMod E.order} {i : Fin N} (hi : i ∈ S)
    {a : ZMod E.order} (h : a + ws i ≠ 0) :
    (roots E (S.erase i) ws).eval a = (roots E S ws).eval a / (a + ws i) := by
  rw [roots_eval, roots_eval, eq_div_iff h, Finset.prod_erase_mul _ _ hi]

theorem linear_eval {q : Nat} (w : ZMod E.order) (α τ : Draw E) :
    polyPoint E (X + Polynomial.C w) (fun e : Fin (q + 1 + 1) => α.scalar ^ e.val • τ.point E) = 0 ↔
      fld α + w = 0 := by
  rw [polyPoint_eval (by rw [natDegree_X_add_C]; omega), pt_eq_zero]
  simp [fld_ne]

/-- What it takes to solve the problem. -/
theorem solves_iff {α τ : Draw E} {w z : ZMod E.order} :
    ((α.scalar + (w.val : Int)) • pt E z = τ.point E) ↔ (fld α + w) * z = fld τ := by
  rw [pt_smul, ← pt_fld]
  have : ((α.scalar + (w.val : Int) : Int) : ZMod E.order) = fld α + w := by simp [fld]
  rw [this]
  constructor
  · intro h
    have h2 : pt E ((fld α + w) * z - fld τ) = 0 := by
      have := pt_add ((fld α + w) * z - fld τ) (fld τ)
      rw [sub_add_cancel, h] at this
      simpa using this
    exact sub_eq_zero.1 (pt_eq_zero.1 h2)
  · intro h
    rw [h]

theorem solved_right {q : Nat} (α τ : Draw E) {a : ZMod E.order} (h : a = fld α) :
    let o := solved E a (fun e : Fin (q + 1) => α.scalar ^ e.val • τ.point E)
    (α.scalar + (o.1.val : Int)) • o.2 = τ.point E := by
  simp only [solved]
  rw [show α.scalar ^ ((0 : Fin (q + 1)).val) • τ.point E = pt E (fld τ) by simp [pt_fld], pt_smul,
    solves_iff, h]
  simp [fld_ne]

theorem sub_eval {q : Nat} (w : ZMod E.order) (α τ : Draw E) :
    polyPoint E (X - Polynomial.C w) (fun e : Fin (q + 1 + 1) => α.scalar ^ e.val • τ.point E) = 0 ↔
      w = fld α := by
  rw [polyPoint_eval (by rw [natDegree_X_sub_C]; omega), pt_eq_zero]
  simp only [eval_sub, eval_X, eval_C, mul_eq_zero, fld_ne, or_false, sub_eq_zero]
  exact eq_comm

/-- The message of the `i`-th question. -/
def msgAt (F : Forger E C) (base : G) (c : C)
    (answer : Nat → ZMod E.order → ZMod E.order × Option G) (i : Nat) : ZMod E.order :=
  F.ask base c ((talk F base c answer i).map Prod.snd)

theorem talk_congr (F : Forger E C) (base : G) (c : C)
    {a a' : Nat → ZMod E.order → ZMod E.order × Option G} (n : Nat)
    (h : ∀ i < n, a i (msgAt F base c a i) = a' i (msgAt F base c a i)) :
    talk F base c a n = talk F base c a' n := by
  induction n with
  | zero => rfl
  | succ n ih =>
    have e := ih fun i hi => h i (by omega)
    have e2 := h n (by omega)
    simp only [talk]
    unfold msgAt at e2
    rw [← e, e2]

theorem mem_talk (F : Forger E C) (base : G) (c : C)
    (a : Nat → ZMod E.order → ZMod E.order × Option G) (n : Nat)
    (e : ZMod E.order × ZMod E.order × Option G) (he : e ∈ talk F base c a n) :
    ∃ i < n, e = (msgAt F base c a i, a i (msgAt F base c a i)) := by
  induction n with
  | zero => simp [talk] at he
  | succ n ih =>
    simp only [talk, List.mem_append, List.mem_singleton] at he
    rcases he with he | he
    · obtain ⟨i, hi, h⟩ := ih he
      exact ⟨i, by omega, h⟩
    · exact ⟨n, by omega, he⟩

theorem talk_mem (F : Forger E C) (base : G) (c : C)
    (a : Nat → ZMod E.order → ZMod E.order × Option G) (n i : Nat) (hi : i < n) :
    (msgAt F base c a i, a i (msgAt F base c a i)) ∈ talk F base c a n := by
  induction n with
  | zero => omega
  | succ n ih =>
    simp only [talk, List.mem_append, List.mem_singleton]
    rcases Nat.lt_succ_iff_lt_or_eq.1 hi with h | h
    · exact Or.inl (ih h)
    · subst h; exact Or.inr rfl

/-- The signer's answers. -/
def honest (base : G) (k y : ZMod E.order) (rs : Fin N → ZMod E.order) :
    Nat → ZMod E.order → ZMod E.order × Option G :=
  fun i m => (nth rs i, bbSign E base k y m (nth rs i))

theorem nth_fin (rs : Fin N → ZMod E.order) (i : Fin N) : nth rs i.val = rs i := by
  simp [nth]

theorem nth_lt (rs : Fin N → ZMod E.order) {i : Nat} (h : i < N) : nth rs i = rs ⟨i, h⟩ := by
  simp [nth, h]

/-- Nonces that give the same values (which determine the nonce when the message is known) are
equal. -/
theorem honest_inj (F : Forger E C) (base : G) (c : C) (k y : ZMod E.order)
    (φ : ZMod E.order → ZMod E.order → ZMod E.order) (hφ : ∀ m r r', φ m r = φ m r' → r = r')
    (rs rs' : Fin N → ZMod E.order)
    (h : ∀ i : Fin N, φ (msgAt F base c (honest base k y rs) i) (rs i) =
      φ (msgAt F base c (honest base k y rs') i) (rs' i)) : rs = rs' := by
  have key : ∀ n, n ≤ N → ∀ i (hi : i < n), nth rs i = nth rs' i := by
    intro n
    induction n with
    | zero => intro _ i hi; omega
    | succ n ih =>
      intro hn i hi
      have h1 := ih (by omega)
      rcases Nat.lt_succ_iff_lt_or_eq.1 hi with hlt | rfl
      · exact h1 i hlt
      · have e : talk F base c (honest base k y rs) i = talk F base c (honest base k y rs') i := by
          apply talk_congr
          intro j hj
          simp only [honest, h1 j hj]
        have e2 := h ⟨i, by omega⟩
        simp only [msgAt, e] at e2
        have := hφ _ _ _ e2
        rw [nth_lt rs (by omega), nth_lt rs' (by omega), this]
  funext i
  rw [← nth_fin rs, ← nth_fin rs']
  exact key N le_rfl i i.isLt

/-- A multiple of a draw. -/
noncomputable def scale (u : ZMod E.order) (d : Draw E) : Draw E :=
  open Classical in if h : u ≠ 0 then (fld_surj (mul_ne_zero h (fld_ne d))).choose else d

theorem fld_scale {u : ZMod E.order} (h : u ≠ 0) (d : Draw E) : fld (scale u d) = u * fld d := by
  unfold scale
  rw [dif_pos h]
  exact (fld_surj (mul_ne_zero h (fld_ne d))).choose_spec

theorem scale_inj (u : ZMod E.order) : Function.Injective (scale (E := E) u) := by
  intro d d' h
  by_cases hu : u ≠ 0
  · apply fld_inj
    have := congrArg fld h
    rw [fld_scale hu, fld_scale hu] at this
    exact mul_left_cancel₀ hu this
  · unfold scale at h
    rwa [dif_neg hu, dif_neg hu] at h

theorem bbSign_pt (k y m r t : ZMod E.order) (h : m + k + y * r ≠ 0) :
    bbSign E (pt E t) k y m r = some (pt E ((m + k + y * r)⁻¹ * t)) := by
  unfold bbSign
  rw [if_neg h, pt_smul]
  simp

theorem bbSign_some {k y m r t : ZMod E.order} {σ : G} (h : bbSign E (pt E t) k y m r = some σ) :
    m + k + y * r ≠ 0 ∧ σ = pt E ((m + k + y * r)⁻¹ * t) := by
  have h0 : m + k + y * r ≠ 0 := by
    intro h0
    unfold bbSign at h
    rw [if_pos h0] at h
    cases h
  refine ⟨h0, ?_⟩
  rw [bbSign_pt k y m r t h0] at h
  exact (Option.some.inj h).symm

/-! ### A forgery with a new value -/

/-- The values of the questions. -/
def valueOf (F : Forger E C) (b : Draw E) (k y : ZMod E.order) (rs : Fin N → ZMod E.order) (c : C)
    (i : Fin N) : ZMod E.order :=
  msgAt F (b.point E) c (honest (b.point E) k y rs) i + y * rs i

/-- The forger asks for the negative of the key, or its forgery has a value that none of the
questions has. -/
def NewForgery (F : Forger E C) (base : G) (k y : ZMod E.order) (rs : Fin N → ZMod E.order) (c : C) :
    Prop :=
  (∃ e ∈ signed F base k y rs c, e.1 + k = 0) ∨
  (Forges F base k y rs c ∧ ∀ e ∈ signed F base k y rs c, e.1 + y * e.2.1 ≠
    (F.out base c ((signed F base k y rs c).map Prod.snd)).1 +
      y * (F.out base c ((signed F base k y rs c).map Prod.snd)).2.1)

/-- Division by `X + w`. -/
theorem div_eval (f : (ZMod E.order)[X]) (w a : ZMod E.order) :
    f.eval a = (a + w) * (f /ₘ (X - Polynomial.C (-w))).eval a + f.eval (-w) := by
  have := congrArg (eval a) (modByMonic_add_div f (X - Polynomial.C (-w)))
  rw [modByMonic_X_sub_C_eq_C_eval] at this
  simp only [eval_add, eval_mul, eval_sub, eval_X, eval_C] at this
  rw [← this]
  ring

theorem div_degree {f : (ZMod E.order)[X]} (hf : f.natDegree ≤ N) (w : ZMod E.order) :
    (f /ₘ (X - Polynomial.C (-w))).natDegree ≤ N := by
  rw [natDegree_divByMonic _ (monic_X_sub_C _)]
  omega

theorem newValue_right (F : Forger E C) (b κ η : Draw E) (rs : Fin N → ZMod E.order) (c : C)
    (h : NewForgery F (b.point E) (fld κ) (fld η) rs c) :
    let ws := valueOf F b (fld κ) (fld η) rs c
    let τ := scale ((roots E Finset.univ ws).eval (fld κ))⁻¹ b
    let o := newValue E F (fun e : Fin (N + 1 + 1) => κ.scalar ^ e.val • τ.point E) (η, ws, c)
    (κ.scalar + (o.1.val : Int)) • o.2 = τ.point E := by
  intro ws τ o
  set P : Fin (N + 1 + 1) → G := fun e => κ.scalar ^ e.val • τ.point E with hP
  by_cases hbad : ∃ i, polyPoint E (X + Polynomial.C (ws i)) P = 0
  · have ho : o = solved E (-ws hbad.choose) P := by
      show newValue E F P (η, ws, c) = _
      simp only [newValue]
      rw [dif_pos hbad]
    rw [ho]
    apply solved_right
    have := (linear_eval _ κ τ).1 hbad.choose_spec
    exact (neg_eq_of_add_eq_zero_left this)
  have hgood : ∀ i, fld κ + ws i ≠ 0 := fun i h0 => hbad ⟨i, (linear_eval _ κ τ).2 h0⟩
  set f := roots E Finset.univ ws with hf
  have hfe : f.eval (fld κ) ≠ 0 := by
    rw [hf, roots_eval]
    exact Finset.prod_ne_zero_iff.2 fun i _ => hgood i
  have hτ : fld τ = (f.eval (fld κ))⁻¹ * fld b := fld_scale (inv_ne_zero hfe) b
  have hb : fld b = f.eval (fld κ) * fld τ := by
    rw [hτ]; field_simp
  have hbase : polyPoint E f P = b.point E := by
    rw [hP, polyPoint_eval ((roots_degree _ _).trans_lt (by omega)), ← hb, pt_fld]
  have hy : fld η ≠ 0 := fld_ne η
  have htalk : signed F (b.point E) (fld κ) (fld η) rs c =
      talk F (polyPoint E f P) c (fun i m => ((nth ws i - m) * (fld η)⁻¹,
        if h : i < N then some (polyPoint E (roots E (Finset.univ.erase ⟨i, h⟩) ws) P) else none)) N := by
    rw [hbase]
    unfold signed
    apply talk_congr
    intro i hi
    show honest (b.point E) (fld κ) (fld η) rs i
      (msgAt F (b.point E) c (honest (b.point E) (fld κ) (fld η) rs) i) =
      (fun (i : Nat) (m : ZMod E.order) => ((nth ws i - m) * (fld η)⁻¹,
        if h : i < N then some (polyPoint E (roots E (Finset.univ.erase ⟨i, h⟩) ws) P) else none)) i
      (msgAt F (b.point E) c (honest (b.point E) (fld κ) (fld η) rs) i)
    set m := msgAt F (b.point E) c (honest (b.point E) (fld κ) (fld η) rs) i with hm
    have hw : nth ws i = m + fld η * nth rs i := by
      rw [nth_lt _ hi, nth_lt _ hi]
      rfl
    have h0 := hgood ⟨i, hi⟩
    rw [← nth_lt ws hi, hw] at h0
    have h1 : m + fld κ + fld η * nth rs i ≠ 0 := by
      intro h; apply h0; rw [← h]; ring
    simp only [honest, dif_pos hi]
    refine Prod.ext ?_ ?_
    · simp only [hw]; field_simp; ring
    · simp only
      rw [← pt_fld b, bbSign_pt _ _ _ _ _ h1, hP,
        polyPoint_eval ((roots_degree _ _).trans_lt (by omega)),
        roots_erase (Finset.mem_univ _) (hgood ⟨i, hi⟩), hb, ← nth_lt ws hi, hw, ← hf]
      congr 2
      have e : fld κ + (m + fld η * nth rs i) = m + fld κ + fld η * nth rs i := by ring
      rw [e]
      field_simp
  by_cases hask : ∃ m, (∃ e ∈ signed F (b.point E) (fld κ) (fld η) rs c, e.1 = m) ∧
      polyPoint E (X + Polynomial.C m) P = 0
  · have ho : o = solved E (-hask.choose) P := by
      show newValue E F P (η, ws, c) = _
      simp only [newValue]
      rw [dif_neg hbad]
      simp only [htalk, hf] at hask ⊢
      exact dif_pos hask
    rw [ho]
    apply solved_right
    have := (linear_eval _ κ τ).1 hask.choose_spec.2
    exact (neg_eq_of_add_eq_zero_left this)
  have hforge : Forges F (b.point E) (fld κ) (fld η) rs c ∧
      ∀ e ∈ signed F (b.point E) (fld κ) (fld η) rs c, e.1 + fld η * e.2.1 ≠
      (F.out (b.point E) c ((signed F (b.point E) (fld κ) (fld η) rs c).map Prod.snd)).1 +
      fld η * (F.out (b.point E) c ((signed F (b.point E) (fld κ) (fld η) rs c).map Prod.snd)).2.1 := by
    rcases h with ⟨e, he, h0⟩ | h
    · exact absurd ⟨e.1, ⟨e, he, rfl⟩, (linear_eval _ κ τ).2 (by rw [add_comm]; exact h0)⟩ hask
    · exact h
  obtain ⟨⟨hσ, -⟩, hnew⟩ := hforge
  set out := F.out (b.point E) c ((signed F (b.point E) (fld κ) (fld η) rs c).map Prod.snd) with hout
  set w := out.1 + fld η * out.2.1 with hw
  have ho : o = (w, (((f.eval (-w))⁻¹).val : Int) •
      (out.2.2 - polyPoint E (f /ₘ (X - Polynomial.C (-w))) P)) := by
    show newValue E F P (η, ws, c) = _
    simp only [newValue]
    rw [dif_neg hbad]
    rw [htalk] at hask
    refine (dif_neg hask).trans ?_
    rw [hw, hout, htalk, ← hbase]
    rfl
  rw [← pt_fld b] at hσ
  obtain ⟨hd, hσ⟩ := bbSign_some hσ
  have ed : out.1 + fld κ + fld η * out.2.1 = fld κ + w := by rw [hw]; ring
  rw [ed] at hd hσ
  have hρ : f.eval (-w) ≠ 0 := by
    rw [hf, roots_eval]
    refine Finset.prod_ne_zero_iff.2 fun i _ h0 => ?_
    have hmem := talk_mem F (b.point E) c (honest (b.point E) (fld κ) (fld η) rs) N i i.isLt
    have := hnew _ hmem
    apply this
    simp only [honest, nth_fin]
    have : ws i = w := by
      have := h0
      rw [neg_add_eq_zero] at this
      exact this.symm
    exact this
  rw [ho]
  simp only
  rw [hσ, hP, polyPoint_eval ((div_degree (roots_degree _ _) w).trans_lt (by omega))]
  have esub : ∀ a b : ZMod E.order, pt E a - pt E b = pt E (a - b) := by
    intro a b
    rw [sub_eq_iff_eq_add, ← pt_add, sub_add_cancel]
  rw [esub, pt_smul, solves_iff]
  have e := div_eval f w (fld κ)
  set z := (f /ₘ (X - Polynomial.C (-w))).eval (fld κ) with hz
  rw [hb, e]
  rw [show ((((f.eval (-w))⁻¹).val : Int) : ZMod E.order) = (f.eval (-w))⁻¹ by simp]
  field_simp
  ring

/-! ### A forgery with an old value -/

/-- The quotients `(m + k) / r` of the questions. -/
def quotOf (F : Forger E C) (b : Draw E) (k y : ZMod E.order) (rs : Fin N → ZMod E.order) (c : C)
    (i : Fin N) : ZMod E.order :=
  let m := msgAt F (b.point E) c (honest (b.point E) k y rs) i
  if m + k = 0 then rs i else (m + k) * (rs i)⁻¹

/-- The forger does not ask for the negative of the key, and its forgery has the value of a
question. -/
def OldForgery (F : Forger E C) (base : G) (k y : ZMod E.order) (rs : Fin N → ZMod E.order) (c : C) :
    Prop :=
  Forges F base k y rs c ∧ (∀ e ∈ signed F base k y rs c, e.1 + k ≠ 0) ∧
  ∃ e ∈ signed F base k y rs c, e.1 + y * e.2.1 =
    (F.out base c ((signed F base k y rs c).map Prod.snd)).1 +
      y * (F.out base c ((signed F base k y rs c).map Prod.snd)).2.1

theorem oldValue_right (F : Forger E C) (b κ η : Draw E) (rs : Fin N → ZMod E.order) (c : C)
    (h : OldForgery F (b.point E) (fld κ) (fld η) rs c) :
    let us := quotOf F b (fld κ) (fld η) rs c
    let τ := scale ((roots E (Finset.univ.filter fun i => us i ≠ 0) us).eval (fld η))⁻¹ b
    let o := oldValue E F (fun e : Fin (N + 1 + 1) => η.scalar ^ e.val • τ.point E) (κ, us, c)
    (η.scalar + (o.1.val : Int)) • o.2 = τ.point E := by
  intro us τ o
  set P : Fin (N + 1 + 1) → G := fun e => η.scalar ^ e.val • τ.point E with hP
  by_cases hbad : ∃ i, polyPoint E (X + Polynomial.C (us i)) P = 0
  · have ho : o = solved E (-us hbad.choose) P := by
      show oldValue E F P (κ, us, c) = _
      simp only [oldValue]
      rw [dif_pos hbad]
    rw [ho]
    apply solved_right
    have := (linear_eval _ η τ).1 hbad.choose_spec
    exact (neg_eq_of_add_eq_zero_left this)
  have hgood : ∀ i, fld η + us i ≠ 0 := fun i h0 => hbad ⟨i, (linear_eval _ η τ).2 h0⟩
  set S := Finset.univ.filter fun i => us i ≠ 0 with hS
  set f := roots E S us with hf
  have hfe : f.eval (fld η) ≠ 0 := by
    rw [hf, roots_eval]
    exact Finset.prod_ne_zero_iff.2 fun i _ => hgood i
  have hτ : fld τ = (f.eval (fld η))⁻¹ * fld b := fld_scale (inv_ne_zero hfe) b
  have hb : fld b = f.eval (fld η) * fld τ := by
    rw [hτ]; field_simp
  have hbase : polyPoint E f P = b.point E := by
    rw [hP, polyPoint_eval ((roots_degree _ _).trans_lt (by omega)), ← hb, pt_fld]
  obtain ⟨⟨hσ, hfresh⟩, hask, hold⟩ := h
  have htalk : signed F (b.point E) (fld κ) (fld η) rs c =
      talk F (polyPoint E f P) c (fun i m => ((m + fld κ) * (nth us i)⁻¹,
        if h : i < N then some (if us ⟨i, h⟩ = 0 then (((m + fld κ)⁻¹).val : Int) • polyPoint E f P else
          ((us ⟨i, h⟩ * (m + fld κ)⁻¹).val : Int) • polyPoint E (roots E (S.erase ⟨i, h⟩) us) P)
        else none)) N := by
    rw [hbase]
    unfold signed
    apply talk_congr
    intro i hi
    have hmem := hask _ (talk_mem F (b.point E) c (honest (b.point E) (fld κ) (fld η) rs) N i hi)
    show honest (b.point E) (fld κ) (fld η) rs i
      (msgAt F (b.point E) c (honest (b.point E) (fld κ) (fld η) rs) i) =
      (fun (i : Nat) (m : ZMod E.order) => ((m + fld κ) * (nth us i)⁻¹,
        if h : i < N then some (if us ⟨i, h⟩ = 0 then (((m + fld κ)⁻¹).val : Int) • b.point E else
          ((us ⟨i, h⟩ * (m + fld κ)⁻¹).val : Int) • polyPoint E (roots E (S.erase ⟨i, h⟩) us) P)
        else none)) i
      (msgAt F (b.point E) c (honest (b.point E) (fld κ) (fld η) rs) i)
    have hu : us ⟨i, hi⟩ = (msgAt F (b.point E) c (honest (b.point E) (fld κ) (fld η) rs) i + fld κ) *
        (rs ⟨i, hi⟩)⁻¹ := if_neg hmem
    set m := msgAt F (b.point E) c (honest (b.point E) (fld κ) (fld η) rs) i with hm
    have hmk : m + fld κ ≠ 0 := hmem
    have h0 := hgood ⟨i, hi⟩
    have hr : rs ⟨i, hi⟩ = (m + fld κ) * (us ⟨i, hi⟩)⁻¹ := by
      rw [hu, mul_inv, inv_inv, ← mul_assoc, mul_inv_cancel₀ hmk, one_mul]
    simp only [honest, dif_pos hi, nth_lt rs hi, nth_lt us hi]
    refine Prod.ext hr ?_
    simp only
    by_cases hz : us ⟨i, hi⟩ = 0
    · rw [if_pos hz]
      rw [hz, inv_zero, mul_zero] at hr
      have h1 : m + fld κ + fld η * rs ⟨i, hi⟩ = m + fld κ := by rw [hr]; ring
      unfold bbSign
      rw [h1, if_neg hmk]
    · rw [if_neg hz]
      have hfac : m + fld κ + fld η * rs ⟨i, hi⟩ =
          (m + fld κ) * (us ⟨i, hi⟩)⁻¹ * (fld η + us ⟨i, hi⟩) := by
        rw [hr]; field_simp; ring
      have h1 : m + fld κ + fld η * rs ⟨i, hi⟩ ≠ 0 := by
        rw [hfac]
        exact mul_ne_zero (mul_ne_zero hmk (inv_ne_zero hz)) h0
      rw [← pt_fld b, bbSign_pt _ _ _ _ _ h1, hP,
        polyPoint_eval ((roots_degree _ _).trans_lt (by omega)),
        roots_erase (by simp [hS, hz]) (hgood ⟨i, hi⟩), hb, ← hf, pt_smul, hfac]
      congr 2
      rw [show (((us ⟨i, hi⟩ * (m + fld κ)⁻¹).val : Int) : ZMod E.order) =
        us ⟨i, hi⟩ * (m + fld κ)⁻¹ by simp]
      field_simp
  set out := F.out (b.point E) c ((signed F (b.point E) (fld κ) (fld η) rs c).map Prod.snd) with hout
  have hex : ∃ a, (∃ e ∈ signed F (b.point E) (fld κ) (fld η) rs c,
      a = (out.1 - e.1) * (e.2.1 - out.2.1)⁻¹) ∧ polyPoint E (X - Polynomial.C a) P = 0 := by
    obtain ⟨e, he, heq⟩ := hold
    refine ⟨_, ⟨e, he, rfl⟩, (sub_eval _ η τ).2 ?_⟩
    have hne : e.2.1 - out.2.1 ≠ 0 := by
      intro h0
      have h1 := sub_eq_zero.1 h0
      rw [h1] at heq
      exact hfresh e he ⟨add_right_cancel heq, h1⟩
    rw [← div_eq_mul_inv, div_eq_iff hne]
    linear_combination -heq
  have ho : ∃ a, a = fld η ∧ o = solved E a P := by
    rw [hout, htalk, ← hbase] at hex
    refine ⟨hex.choose, (sub_eval _ η τ).1 hex.choose_spec.2, ?_⟩
    show oldValue E F P (κ, us, c) = _
    simp only [oldValue]
    rw [dif_neg hbad]
    exact dif_pos hex
  obtain ⟨a, ha, ho⟩ := ho
  rw [ho]
  exact solved_right η τ ha

/-- The draws of the first algorithm's problem that correspond to the draws of the game. -/
noncomputable def toNew (F : Forger E C) (t : Draw E × Draw E × Draw E × (Fin N → ZMod E.order) × C) :
    Draw E × Draw E × Draw E × (Fin N → ZMod E.order) × C :=
  let ws := valueOf F t.1 (fld t.2.1) (fld t.2.2.1) t.2.2.2.1 t.2.2.2.2
  (t.2.1, scale ((roots E Finset.univ ws).eval (fld t.2.1))⁻¹ t.1, t.2.2.1, ws, t.2.2.2.2)

theorem toNew_inj (F : Forger E C) : Function.Injective (toNew (N := N) F) := by
  rintro ⟨b, κ, η, rs, c⟩ ⟨b', κ', η', rs', c'⟩ h
  simp only [toNew, Prod.mk.injEq] at h
  obtain ⟨rfl, hτ, rfl, hw, rfl⟩ := h
  rw [hw] at hτ
  obtain rfl := scale_inj _ hτ
  have := honest_inj F (b.point E) c (fld κ) (fld η) (fun m r => m + fld η * r)
    (fun m r r' h => mul_left_cancel₀ (fld_ne η) (add_left_cancel h)) rs rs' (fun i => congrFun hw i)
  rw [this]

/-- The draws of the second algorithm's problem that correspond to the draws of the game. -/
noncomputable def toOld (F : Forger E C) (t : Draw E × Draw E × Draw E × (Fin N → ZMod E.order) × C) :
    Draw E × Draw E × Draw E × (Fin N → ZMod E.order) × C :=
  let us := quotOf F t.1 (fld t.2.1) (fld t.2.2.1) t.2.2.2.1 t.2.2.2.2
  (t.2.2.1, scale ((roots E (Finset.univ.filter fun i => us i ≠ 0) us).eval (fld t.2.2.1))⁻¹ t.1,
    t.2.1, us, t.2.2.2.2)

theorem toOld_inj (F : Forger E C) : Function.Injective (toOld (N := N) F) := by
  rintro ⟨b, κ, η, rs, c⟩ ⟨b', κ', η', rs', c'⟩ h
  simp only [toOld, Prod.mk.injEq] at h
  obtain ⟨rfl, hτ, rfl, hu, rfl⟩ := h
  rw [hu] at hτ
  obtain rfl := scale_inj _ hτ
  have := honest_inj F (b.point E) c (fld κ) (fld η)
    (fun m r => if m + fld κ = 0 then r else (m + fld κ) * r⁻¹) (by
      intro m r r' h
      split at h
      · exact h
      · rename_i h0
        exact inv_injective (mul_left_cancel₀ h0 h)) rs rs' (fun i => congrFun hu i)
  rw [this]

instance : NeZero E.order := ⟨hE.out.prime.ne_zero⟩

end

/-! ### The theorem -/

/-- **C129**.  "This signature is unforgeable as long as r is chosen at random"
(bb_oblivious_signature.h:46-47): a forger who asks for `N` signatures on messages of its choice, each
with a random nonce, and makes one on another pair, solves the strong Diffie-Hellman problem of the
curve with `N + 1` powers by one of two explicit algorithms; nothing is lost. -/
theorem C129_unforgeable (E : EcGroup G) [Fact E.Lawful] (N : Nat) {C : Type} [Fintype C]
    (F : Forger E C) :
    forgeProb E N F ≤ sdhProb E (N + 1) (newValue E (N := N) F) +
      sdhProb E (N + 1) (oldValue E (N := N) F) := by
  classical
  have h1 : prob (fun t : Draw E × Draw E × Draw E × (Fin N → ZMod E.order) × C =>
      NewForgery F (t.1.point E) (fld t.2.1) (fld t.2.2.1) t.2.2.2.1 t.2.2.2.2) ≤
      sdhProb E (N + 1) (newValue E (N := N) F) :=
    prob_le_inj _ _ (toNew F) (toNew_inj F) rfl fun t ht =>
      newValue_right F t.1 t.2.1 t.2.2.1 t.2.2.2.1 t.2.2.2.2 ht
  have h2 : prob (fun t : Draw E × Draw E × Draw E × (Fin N → ZMod E.order) × C =>
      OldForgery F (t.1.point E) (fld t.2.1) (fld t.2.2.1) t.2.2.2.1 t.2.2.2.2) ≤
      sdhProb E (N + 1) (oldValue E (N := N) F) :=
    prob_le_inj _ _ (toOld F) (toOld_inj F) rfl fun t ht =>
      oldValue_right F t.1 t.2.1 t.2.2.1 t.2.2.2.1 t.2.2.2.2 ht
  refine le_trans (prob_mono fun t ht => ?_) ((prob_or_le _ _).trans (add_le_add h1 h2))
  have ht' : Forges F (t.1.point E) (fld t.2.1) (fld t.2.2.1) t.2.2.2.1 t.2.2.2.2 := ht
  by_cases hk : ∃ e ∈ signed F (t.1.point E) (fld t.2.1) (fld t.2.2.1) t.2.2.2.1 t.2.2.2.2,
      e.1 + fld t.2.1 = 0
  · exact Or.inl (Or.inl hk)
  · push Not at hk
    by_cases hv : ∃ e ∈ signed F (t.1.point E) (fld t.2.1) (fld t.2.2.1) t.2.2.2.1 t.2.2.2.2,
        e.1 + fld t.2.2.1 * e.2.1 = (F.out (t.1.point E) t.2.2.2.2
          ((signed F (t.1.point E) (fld t.2.1) (fld t.2.2.1) t.2.2.2.1 t.2.2.2.2).map Prod.snd)).1 +
        fld t.2.2.1 * (F.out (t.1.point E) t.2.2.2.2
          ((signed F (t.1.point E) (fld t.2.1) (fld t.2.2.1) t.2.2.2.1 t.2.2.2.2).map Prod.snd)).2.1
    · exact Or.inr ⟨ht', hk, hv⟩
    · push Not at hv
      exact Or.inl (Or.inr ⟨ht', hv⟩)

/-- The signatures of the game are those of the library: what a client extracts satisfies `IsBbSig`
(`C60_signatures`), and that is this signature. -/
theorem C129_signature (v : BbSig G) [Fact v.group.Lawful] (t : Draw v.group)
    (hb : v.base = t.point v.group) (k y m r : Int) (σ : G) :
    IsBbSig v k y m r σ ↔ bbSign v.group v.base (k : ZMod v.group.order) y m r = some σ := by
  have key : ∀ j : Int, j * (m + k + y * r) ≡ 1 [ZMOD v.group.order] ↔
      (j : ZMod v.group.order) * (m + k + y * r) = 1 := by
    intro j
    rw [← ZMod.intCast_eq_intCast_iff]
    push_cast
    exact Iff.rfl
  rw [hb, ← pt_fld]
  constructor
  · rintro ⟨j, hj, rfl⟩
    rw [key] at hj
    have h0 : (m : ZMod v.group.order) + k + y * r ≠ 0 := by
      intro h0; rw [h0, mul_zero] at hj; exact zero_ne_one hj
    rw [bbSign_pt _ _ _ _ _ h0, hb, ← pt_fld, pt_smul, eq_inv_of_mul_eq_one_left hj]
  · intro h
    obtain ⟨h0, rfl⟩ := bbSign_some h
    refine ⟨(((m : ZMod v.group.order) + k + y * r)⁻¹.val : Int), ?_, ?_⟩
    · rw [key]
      simp [h0]
    · rw [hb, ← pt_fld, pt_smul]
      simp

/-- What the signer computes from a decrypted value `m + k + y r` is the signature of the game; there
is none exactly when signing fails. -/
theorem C129_signOne (v : BbSig G) [Fact v.group.Lawful] (t : Draw v.group)
    (hb : v.base = t.point v.group) (k y m r : Int) :
    Bb.signOne v (m + k + y * r) =
      match bbSign v.group v.base (k : ZMod v.group.order) y m r with
      | some σ => .ok σ
      | none => .err .invalidArgument := by
  have hp := (Fact.out : v.group.Lawful).prime
  have hpos : (0 : Int) < v.group.order := by exact_mod_cast hp.pos
  by_cases hg : Int.gcd (m + k + y * r) v.group.order = 1
  · obtain ⟨h1, -, -⟩ := BN.inv_spec hpos hg
    have hs : IsBbSig v k y m r (BN.inv (m + k + y * r) v.group.order • v.base) :=
      ⟨_, by rw [mul_comm]; exact h1, rfl⟩
    rw [C129_signature v t hb] at hs
    rw [hs]
    unfold Bb.signOne
    rw [BN.modInverse_ok hpos hg]
    rfl
  · have h0 : (m : ZMod v.group.order) + k + y * r = 0 := by
      have hd : (v.group.order : Int) ∣ m + k + y * r := by
        rcases (Nat.coprime_or_dvd_of_prime hp (m + k + y * r).natAbs) with h1 | h1
        · exact absurd (by rw [Int.gcd_comm]; simpa [Int.gcd] using h1) hg
        · exact Int.natCast_dvd.2 h1
      have := (ZMod.intCast_zmod_eq_zero_iff_dvd _ v.group.order).2 hd
      push_cast at this
      exact this
    unfold bbSign Bb.signOne
    rw [if_pos h0]
    simp [BN.modInverse, hg]

/-- The generator and the keys of the game are those of the library: `GetRandomGenerator` and
`GeneratePrivateKey` return them when the drawn word is the draw. -/
theorem C129_draws (E : EcGroup G) (hE : E.Lawful) (d : Draw E) :
    E.getRandomGenerator d.val = .ok (d.point E) ∧ E.generatePrivateKey d.val = .ok d.scalar := by
  have hk := Cpa.generatePrivateKey_draw hE d
  refine ⟨?_, hk⟩
  unfold EcGroup.generatePrivateKey at hk
  simp only [EcGroup.getRandomGenerator, hk, Res.ok_bind, Res.pure_eq]
  rfl

/-! ### Examples -/

/-- A forger on the toy group of order 11, where points are numbers: it asks for 3, and when the nonce
is 0 it computes the key `k` and signs 4 with the nonce 0. -/
def toyForger : Forger toyEc Unit where
  ask := fun _ _ _ => (3 : ZMod 11)
  out := fun (b : ZMod 11) _ l => match l with
    | [(_, some (σ : ZMod 11))] => ((4 : ZMod 11), (0 : ZMod 11), b * (b * σ⁻¹ + 1)⁻¹)
    | _ => ((0 : ZMod 11), (0 : ZMod 11), (0 : ZMod 11))

instance : Fact toyEc.Lawful := ⟨toyEc_lawful⟩

example := C129_unforgeable toyEc 1 toyForger

/-- It forges for the first draw of generator and keys and the nonce 0 (the generator 1, `k = y = 1`),
so that one of the two algorithms then solves the problem with positive probability. -/
theorem C129_reached : Forges toyForger (Draw.point toyEc ⟨0, by decide⟩)
    ((1 : Int) : ZMod toyEc.order) ((1 : Int) : ZMod toyEc.order) (N := 1)
    (fun _ => ((0 : Int) : ZMod toyEc.order)) () ∧
    0 < sdhProb toyEc 2 (newValue toyEc (N := 1) toyForger) +
      sdhProb toyEc 2 (oldValue toyEc (N := 1) toyForger) := by
  have h : Forges toyForger (Draw.point toyEc ⟨0, by decide⟩)
    ((1 : Int) : ZMod toyEc.order) ((1 : Int) : ZMod toyEc.order) (N := 1)
    (fun _ => ((0 : Int) : ZMod toyEc.order)) () := by decide +kernel
  refine ⟨h, lt_of_lt_of_le ?_ (C129_unforgeable toyEc 1 toyForger)⟩
  let t : Draw toyEc × Draw toyEc × Draw toyEc × (Fin 1 → ZMod toyEc.order) × Unit :=
    (⟨0, by decide⟩, ⟨0, by decide⟩, ⟨0, by decide⟩, fun _ => ((0 : Int) : ZMod toyEc.order), ())
  unfold forgeProb prob
  apply div_pos
  · exact_mod_cast Finset.card_pos.2 ⟨t, Finset.mem_filter.2 ⟨Finset.mem_univ _, h⟩⟩
  · exact_mod_cast Fintype.card_pos_iff.2 ⟨t⟩

end PJC.BbForge
