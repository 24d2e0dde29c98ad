import Verif.Lemmas.BoxProb
import Verif.Lemmas.SafeFactor
import Verif.Props.Hiding
/-
Property C130: commitments bind.  Whoever opens a commitment in two ways, with parameters made by
`GenerateParameters`, finds a factor of the modulus.
-/
namespace PJC.PedBind
open PJC PJC.Ped PJC.Prob PJC.SafeFactor PJC.Props Classical

/-- Messages and the randomness. -/
abbrev Opening := List Int × Int

/-- Who is given the generators, `h`, the modulus and coins, and returns a commitment and two
openings. -/
abbrev Breaker (C : Type) := List Int → Int → Int → C → Int × Opening × Opening

/-- `Verify` accepts both openings, and they have different messages (a missing message counts as
0, as it does for the code). -/
def OpensTwice {C : Type} (A : Breaker C) (kk : Nat) (gs : List Int) (h n : Int) (c : C) : Prop :=
  ∃ ped, Ped.create gs h n kk = .ok ped ∧
    Ped.verify ped (A gs h n c).1 (A gs h n c).2.1.1 (A gs h n c).2.1.2 = .ok true ∧
    Ped.verify ped (A gs h n c).1 (A gs h n c).2.2.1 (A gs h n c).2.2.2 = .ok true ∧
    ∃ i : Nat, (A gs h n c).2.1.1.getD i 0 ≠ (A gs h n c).2.2.1.getD i 0

/-- The probability of that, with fresh parameters for `k` messages: the draws of
`GenerateParameters` are a unit modulo `n` and `k` numbers below `n / 4`. -/
noncomputable def bindProb (n k kk : Nat) [NeZero n] {C : Type} [Fintype C] (A : Breaker C) : ℚ :=
  prob fun s : (ZMod n)ˣ × (Fin k → Fin (n / 4)) × C =>
    ∃ P, generateParameters n (s.1.val.val : Int) (List.ofFn fun i => (s.2.1 i).val) = .ok P ∧
      OpensTwice A kk P.gs P.h P.n s.2.2

/-- The generators with the exponents `w`. -/
def gens (n : Nat) (h : Int) {k : Nat} (w : Fin k → Nat) : List Int :=
  List.ofFn fun i => h ^ w i % (n : Int)

/-- What the two openings of the adversary give. -/
def gap {C : Type} (A : Breaker C) (n x : Nat) {k : Nat} (w : Fin k → Nat) (c : C) : Int :=
  let h := (x : Int) ^ 2 % (n : Int)
  let o := A (gens n h w) h n c
  ∑ i : Fin k, (w i : Int) * (o.2.1.1.getD i 0 - o.2.2.1.getD i 0) + (o.2.1.2 - o.2.2.2)

/-- The factoring algorithm: it knows only `n`; it makes parameters itself, with exponents below
`n 2^t`, runs the adversary and takes one greatest common divisor. -/
def factorAlg {C : Type} (A : Breaker C) (n x : Nat) {k : Nat} (w : Fin k → Nat) (z : Nat) (c : C) :
    Nat :=
  Int.gcd ((z : Int) ^ oddPart (gap A n x w c).natAbs % (n : ℕ) - 1) (n : ℕ)

/-- The probability that the algorithm returns a factor other than 1 and `n`. -/
noncomputable def factorProb (n k t : Nat) [NeZero n] {C : Type} [Fintype C] (A : Breaker C) : ℚ :=
  prob fun s : (ZMod n)ˣ × (Fin k → Fin (n * 2 ^ t)) × (ZMod n)ˣ × C =>
    1 < factorAlg A n s.1.val.val (fun i => (s.2.1 i).val) s.2.2.1.val.val s.2.2.2 ∧
      factorAlg A n s.1.val.val (fun i => (s.2.1 i).val) s.2.2.1.val.val s.2.2.2 < n ∧
      factorAlg A n s.1.val.val (fun i => (s.2.1 i).val) s.2.2.1.val.val s.2.2.2 ∣ n

section
variable {C : Type} {p q k kk : Nat}

/-- The adversary wins with the exponents `w`. -/
def Breaks (A : Breaker C) (kk n x : Nat) (c : C) (w : Fin k → Nat) : Prop :=
  OpensTwice A kk (gens n ((x : Int) ^ 2 % (n : Int)) w) ((x : Int) ^ 2 % (n : Int)) n c

theorem gens_congr [NeZero (p * q)] (h : Safe2 p q) (x : (ZMod (p * q))ˣ) {w w' : Fin k → Nat}
    (hw : ∀ i, w i % (p / 2 * (q / 2)) = w' i % (p / 2 * (q / 2))) :
    gens (p * q) ((x.val.val : Int) ^ 2 % (p * q : ℕ)) w =
      gens (p * q) ((x.val.val : Int) ^ 2 % (p * q : ℕ)) w' := by
  unfold gens
  congr 1
  funext i
  exact PJC.Bb.pow_mod_of_residue (square_period h x) (hw i)

theorem dotNat_ofFn : ∀ {k : Nat} (w : Fin k → Nat) (ms : List Int), ms.length ≤ k →
    (∀ m ∈ ms, 0 ≤ m) →
    ((dotNat (List.ofFn fun i => (w i : Int)) ms : Nat) : Int) = ∑ i : Fin k, (w i : Int) * ms.getD i 0
  | 0, w, ms, _, _ => by simp [dotNat]
  | k + 1, w, [], _, _ => by simp [dotNat]
  | k + 1, w, m :: ms, hl, hm => by
    have ih := dotNat_ofFn (fun i => w i.succ) ms (by simpa using hl)
      (fun a ha => hm a (List.mem_cons_of_mem _ ha))
    rw [Fin.sum_univ_succ]
    unfold dotNat at ih ⊢
    rw [List.ofFn_succ]
    simp only [List.zipWith_cons_cons, List.sum_cons]
    push_cast at ih ⊢
    rw [ih]
    simp [hm m (List.mem_cons_self)]

/-- The exponent of a commitment. -/
theorem commit_exp {n : Int} {h : Int} (hn : 1 < n) (w : Fin k → Nat) {ms : List Int} {r : Int}
    (hl : ms.length ≤ k) (hm : ∀ m ∈ ms, 0 ≤ m) (hr : 0 ≤ r) :
    ∃ e : Nat, (e : Int) = ∑ i : Fin k, (w i : Int) * ms.getD i 0 + r ∧
      commitment (List.ofFn fun i => h ^ w i % n) h n ms r = h ^ e % n := by
  refine ⟨dotNat (List.ofFn fun i => (w i : Int)) ms + r.toNat, ?_, ?_⟩
  · push_cast
    rw [dotNat_ofFn w ms hl hm, Int.toNat_of_nonneg hr]
  · unfold commitment
    rw [emod_eq_iff (by omega)]
    push_cast
    rw [prodOfPowers_log (by omega : 0 < n) _ (List.ofFn fun i => (w i : Int)) ms (by simp) ?_, pow_add]
    intro i g r h1 h2
    rw [List.getElem?_ofFn] at h1 h2
    split at h1
    · rename_i hi
      rw [dif_pos hi] at h2
      cases h1
      cases h2
      simp
    · cases h1

/-- The exponent of an opening that `Verify` accepts. -/
theorem opening_exp {n : Int} {h : Int} (hn : 1 < n) (hk : 1 ≤ kk) (hk' : kk < 31) {w : Fin k → Nat}
    {ped : Pedersen} (hp : Ped.create (List.ofFn fun i => h ^ w i % n) h n kk = .ok ped) {c : Int}
    {ms : List Int} {r : Int} (hv : Ped.verify ped c ms r = .ok true) :
    ms.length ≤ k ∧ ∃ e : Nat, (e : Int) = ∑ i : Fin k, (w i : Int) * ms.getD i 0 + r ∧ c = h ^ e % n := by
  obtain ⟨p', hp', Gd⟩ := create_good (gs := List.ofFn fun i => h ^ w i % n) (h := h) (n := n) (k := kk)
    hn hk hk'
  rw [hp] at hp'
  cases hp'
  have v : Valid (List.ofFn fun i => h ^ w i % n) ms r := by
    by_contra v
    rw [(Gd.refuse v c).2] at hv
    cases hv
  have hl : ms.length ≤ k := by simpa using v.1
  obtain ⟨e, he, hc⟩ := commit_exp hn w hl v.2 v.3 (h := h)
  rw [Gd.verify v] at hv
  simp only [Res.ok.injEq, decide_eq_true_eq] at hv
  exact ⟨hl, e, he, hv.trans hc⟩

theorem gap_dvd [NeZero (p * q)] (h : Safe2 p q) (hk : 1 ≤ kk) (hk' : kk < 31) (A : Breaker C)
    (x : (ZMod (p * q))ˣ) (hx : GoodBase p q x.val.val) (c : C) (w : Fin k → Nat)
    (hb : Breaks A kk (p * q) x.val.val c w) :
    (∃ i : Fin k, (A (gens (p * q) ((x.val.val : Int) ^ 2 % (p * q : ℕ)) w)
        ((x.val.val : Int) ^ 2 % (p * q : ℕ)) (p * q : ℕ) c).2.1.1.getD i 0 -
      (A (gens (p * q) ((x.val.val : Int) ^ 2 % (p * q : ℕ)) w)
        ((x.val.val : Int) ^ 2 % (p * q : ℕ)) (p * q : ℕ) c).2.2.1.getD i 0 ≠ 0) ∧
      ((p / 2 * (q / 2) : ℕ) : Int) ∣ gap A (p * q) x.val.val w c := by
  obtain ⟨ped, hc, v1, v2, i, hi⟩ := hb
  have hn : (1 : Int) < (p * q : ℕ) := by
    have := h.bigL; have := h.bigR
    exact_mod_cast (by nlinarith : 1 < p * q)
  obtain ⟨l1, e1, he1, hc1⟩ := opening_exp hn hk hk' hc v1
  obtain ⟨l2, e2, he2, hc2⟩ := opening_exp hn hk hk' hc v2
  constructor
  · have hik : i < k := by
      by_contra hge
      apply hi
      rw [List.getD_eq_default _ _ (by omega), List.getD_eq_default _ _ (by omega)]
    exact ⟨⟨i, hik⟩, sub_ne_zero.2 hi⟩
  · have := square_order h x hx e1 e2 (hc1.symm.trans hc2)
    rw [he1, he2] at this
    unfold gap
    convert this using 1
    simp only [mul_sub, Finset.sum_sub_distrib]
    ring

/-- Averaging a bound over an independent draw. -/
theorem prob_avg {α β β' : Type} [Fintype α] [Nonempty α] [Fintype β] [Fintype β'] (S : α → β → Prop)
    (T : α → β' → Prop) [∀ a b, Decidable (S a b)] [∀ a b, Decidable (T a b)] {ε : ℚ} (h : ∀ a, prob (S a) ≤ prob (T a) + ε) :
    prob (fun t : α × β => S t.1 t.2) ≤ prob (fun t : α × β' => T t.1 t.2) + ε := by
  rw [prob_prod S, prob_prod T]
  have hc : (0 : ℚ) < Fintype.card α := by exact_mod_cast Fintype.card_pos
  rw [div_add' _ _ _ hc.ne', div_le_div_iff_of_pos_right hc]
  calc ∑ a, prob (S a) ≤ ∑ a, (prob (T a) + ε) := Finset.sum_le_sum fun a _ => h a
    _ = _ := by rw [Finset.sum_add_distrib, Finset.sum_const, Finset.card_univ, nsmul_eq_mul]; ring

/-- Independent events. -/
theorem prob_and {α β : Type} [Fintype α] [Fintype β] (S : α → Prop) (T : β → Prop)
    [DecidablePred S] [DecidablePred T] [DecidablePred fun t : α × β => S t.1 ∧ T t.2] :
    prob (fun t : α × β => S t.1 ∧ T t.2) = prob S * prob T := by
  unfold prob
  have : (Finset.univ.filter fun t : α × β => S t.1 ∧ T t.2) =
      Finset.univ.filter S ×ˢ Finset.univ.filter T := by
    ext t; simp
  rw [this, Finset.card_product, Fintype.card_prod]
  push_cast
  rw [div_mul_div_comm]

theorem pb_or {B : Nat} {S T U : (Fin k → Nat) → Prop} (h : ∀ w, S w → T w ∨ U w) :
    pb k B S ≤ pb k B T + pb k B U := by
  unfold pb
  exact le_trans (prob_mono fun w => h _) (prob_or_le _ _)

theorem prob_pb {B : Nat} (S : (Fin k → Nat) → Prop) (T : (Fin k → Fin B) → Prop) [DecidablePred T]
    (h : ∀ w, T w ↔ S fun i => (w i).val) : prob T = pb k B S := by
  unfold pb
  exact prob_congr h

theorem index_eq (h : Safe2 p q) : p * q = 4 * (p / 2 * (q / 2)) + 2 * (p / 2 + q / 2) + 1 := by
  have h1 := h.left.2.1
  have h2 := h.right.2.1
  have e1 : p = 2 * (p / 2) + 1 := by omega
  have e2 : q = 2 * (q / 2) + 1 := by omega
  generalize p / 2 = a at *
  generalize q / 2 = b at *
  subst e1 e2
  ring

/-- For one good base and fixed coins: the exponents may be drawn from the longer range, and then
the gap is not 0. -/
theorem one_base [NeZero (p * q)] (h : Safe2 p q) (hk : 1 ≤ kk) (hk' : kk < 31) (A : Breaker C)
    (x : (ZMod (p * q))ˣ) (hx : GoodBase p q x.val.val) (c : C) (t : Nat) :
    pb k (p * q / 4) (Breaks A kk (p * q) x.val.val c) ≤
      pb k (p * q * 2 ^ t) (fun w => Breaks A kk (p * q) x.val.val c w ∧
        gap A (p * q) x.val.val w c ≠ 0) +
      (k * ((p / 2 + q / 2 : ℕ) : ℚ) / (2 * (p / 2 * (q / 2) : ℕ)) + k / 2 ^ (t + 1)) := by
  have hn := index_eq h
  have hM := h.pos
  set M := p / 2 * (q / 2) with hMd
  set s := p / 2 + q / 2 with hs
  have hB0 : p * q / 4 = M + s / 2 := by omega
  set B1 := p * q * 2 ^ t with hB1
  set Q := B1 / M with hQ
  have h2t : 0 < 2 ^ t := by positivity
  have hB1' : 4 * 2 ^ t * M ≤ B1 := by
    rw [hB1, hn]
    nlinarith
  have hQ4 : 4 * 2 ^ t ≤ Q := (Nat.le_div_iff_mul_le hM).2 hB1'
  have hQ0 : 0 < Q := by omega
  have hQM : Q * M ≤ B1 := Nat.div_mul_le_self _ _
  have hrest : B1 - Q * M < M := by
    have := Nat.lt_div_mul_add (a := B1) hM
    rw [← hQ] at this
    omega
  have hres : ∀ w w' : Fin k → Nat, (∀ i, w i % M = w' i % M) →
      (Breaks A kk (p * q) x.val.val c w ↔ Breaks A kk (p * q) x.val.val c w') := by
    intro w w' hw
    unfold Breaks
    rw [gens_congr h x hw]
  -- the three steps
  have s1 := pb_widen (k := k) (S := Breaks A kk (p * q) x.val.val c) hM (by omega : M ≤ p * q / 4)
  have s2 := pb_residue (k := k) (S := Breaks A kk (p * q) x.val.val c) hQ0 hres
  have s3 : pb k (Q * M) (fun w => Breaks A kk (p * q) x.val.val c w ∧ gap A (p * q) x.val.val w c = 0) ≤
      k / Q := by
    refine pb_zero hQ0 hM
      (fun w i => (A (gens (p * q) ((x.val.val : Int) ^ 2 % (p * q : ℕ)) w)
        ((x.val.val : Int) ^ 2 % (p * q : ℕ)) (p * q : ℕ) c).2.1.1.getD i 0 -
        (A (gens (p * q) ((x.val.val : Int) ^ 2 % (p * q : ℕ)) w)
        ((x.val.val : Int) ^ 2 % (p * q : ℕ)) (p * q : ℕ) c).2.2.1.getD i 0)
      (fun w => (A (gens (p * q) ((x.val.val : Int) ^ 2 % (p * q : ℕ)) w)
        ((x.val.val : Int) ^ 2 % (p * q : ℕ)) (p * q : ℕ) c).2.1.2 -
        (A (gens (p * q) ((x.val.val : Int) ^ 2 % (p * q : ℕ)) w)
        ((x.val.val : Int) ^ 2 % (p * q : ℕ)) (p * q : ℕ) c).2.2.2) ?_ ?_
    · intro w w' hw
      rw [gens_congr h x hw]
      exact ⟨rfl, rfl⟩
    · rintro w ⟨hb, hg⟩
      exact ⟨(gap_dvd h hk hk' A x hx c w hb).1, hg⟩
  have s4 := pb_shrink (k := k) (S := fun w => Breaks A kk (p * q) x.val.val c w ∧
    gap A (p * q) x.val.val w c ≠ 0) (Nat.mul_pos hQ0 hM) hQM
  have s5 : pb k (Q * M) (Breaks A kk (p * q) x.val.val c) ≤
      pb k (Q * M) (fun w => Breaks A kk (p * q) x.val.val c w ∧ gap A (p * q) x.val.val w c = 0) +
      pb k (Q * M) (fun w => Breaks A kk (p * q) x.val.val c w ∧ gap A (p * q) x.val.val w c ≠ 0) := by
    refine pb_or fun w hw => ?_
    by_cases hg : gap A (p * q) x.val.val w c = 0
    · exact Or.inl ⟨hw, hg⟩
    · exact Or.inr ⟨hw, hg⟩
  -- the numbers
  have hMq : (0 : ℚ) < M := by exact_mod_cast hM
  have hk0 : (0 : ℚ) ≤ k := by positivity
  have n1 : (k : ℚ) * ((p * q / 4 - M : ℕ) : ℚ) / ((p * q / 4 : ℕ) : ℚ) ≤ k * (s : ℚ) / (2 * (M : ℚ)) := by
    rw [hB0, Nat.add_sub_cancel_left]
    rw [div_le_div_iff₀ (by positivity) (by positivity)]
    have e1 : (2 : ℚ) * (s / 2 : ℕ) ≤ s := by exact_mod_cast (by omega : 2 * (s / 2) ≤ s)
    have e2 : (M : ℚ) ≤ ((M + s / 2 : ℕ) : ℚ) := by exact_mod_cast (by omega)
    have e3 : (0 : ℚ) ≤ (s / 2 : ℕ) := by positivity
    have e4 : (0 : ℚ) ≤ (s : ℚ) := by positivity
    calc (k : ℚ) * (s / 2 : ℕ) * (2 * M) = k * ((2 * (s / 2 : ℕ)) * M) := by ring
      _ ≤ k * (s * ((M + s / 2 : ℕ) : ℚ)) := by gcongr
      _ = _ := by ring
  have n2 : (k : ℚ) / Q ≤ k / (4 * 2 ^ t) := by
    have : (4 * 2 ^ t : ℚ) ≤ Q := by exact_mod_cast hQ4
    gcongr
  have n3 : (k : ℚ) * ((B1 - Q * M : ℕ) : ℚ) / (B1 : ℚ) ≤ k / (4 * 2 ^ t) := by
    have hB : (0 : ℚ) < B1 := by
      have : 0 < B1 := lt_of_lt_of_le (Nat.mul_pos hQ0 hM) hQM
      exact_mod_cast this
    rw [div_le_div_iff₀ hB (by positivity)]
    have e1 : ((B1 - Q * M : ℕ) : ℚ) ≤ M := by exact_mod_cast hrest.le
    have e2 : (4 * 2 ^ t * M : ℚ) ≤ B1 := by exact_mod_cast hB1'
    calc (k : ℚ) * ((B1 - Q * M : ℕ) : ℚ) * (4 * 2 ^ t) ≤ k * M * (4 * 2 ^ t) := by gcongr
      _ = k * (4 * 2 ^ t * M) := by ring
      _ ≤ k * B1 := by gcongr
  have n4 : (k : ℚ) / (4 * 2 ^ t) + k / (4 * 2 ^ t) = k / 2 ^ (t + 1) := by
    rw [pow_succ]
    field_simp
    ring
  linarith

theorem genLoop_ofFn {h : Int} {n : Nat} (hn : 4 ≤ n) : ∀ {k : Nat} (w : Fin k → Nat), (∀ i, w i < n / 4) →
    genLoop h n (List.ofFn w) = .ok (List.ofFn fun i => (h ^ w i % (n : Int), (w i : Int)))
  | 0, w, _ => by simp [genLoop]
  | k + 1, w, hw => by
    have ih := genLoop_ofFn (h := h) hn (fun i => w i.succ) fun i => hw _
    rw [List.ofFn_succ, List.ofFn_succ]
    unfold genLoop
    have hb : (n : Int).tdiv 4 = ((n / 4 : ℕ) : Int) := by
      rw [Int.tdiv_eq_ediv_of_nonneg (by omega)]; norm_num
    have h0 := hw 0
    have hm : ((w 0 : ℕ) : Int) % ((n / 4 : ℕ) : Int) = (w 0 : Int) :=
      Int.emod_eq_of_lt (by omega) (by exact_mod_cast h0)
    rw [BN.divAndTruncate, if_neg (by omega), Res.ok_bind, hb, Ctx.randLessThan, if_neg (by omega),
      hm, Res.ok_bind, BN.modExp, if_neg (by omega), if_neg (by omega), Res.ok_bind, ih, Res.ok_bind]
    simp

theorem generated {n : Nat} (hn : 4 ≤ n) (x : Nat) (w : Fin k → Nat) (hw : ∀ i, w i < n / 4)
    {P : PedersenParams} (hP : generateParameters n (x : Int) (List.ofFn w) = .ok P) :
    P.gs = gens n ((x : Int) ^ 2 % (n : Int)) w ∧ P.h = (x : Int) ^ 2 % (n : Int) ∧ P.n = n := by
  unfold generateParameters at hP
  rw [BN.modSqr, BN.mod, if_neg (by omega), Res.ok_bind] at hP
  rw [genLoop_ofFn hn w hw, Res.ok_bind] at hP
  cases hP
  refine ⟨?_, ?_, rfl⟩
  · simp [gens, List.map_ofFn, Function.comp_def, sq]
  · simp [sq]

/-- **C130**.  The modulus is the product of two safe primes, as `GenerateParameters` expects.
Whatever the adversary does, they open a commitment with fresh parameters to two different lists of
messages with at most twice the probability with which the algorithm `factorAlg`, that runs the
adversary once, factors the modulus - up to two terms: one that comes from the lengths of the
primes and one that halves with each bit by which the algorithm draws longer exponents. -/
theorem C130_binding [NeZero (p * q)] [Fintype C] [Nonempty C] (h : Safe2 p q) (hk : 1 ≤ kk)
    (hk' : kk < 31) (A : Breaker C) (t : Nat) :
    bindProb (p * q) k kk A ≤ 2 * factorProb (p * q) k t A +
      (k + 2) * ((p / 2 + q / 2 : ℕ) : ℚ) / (2 * (p / 2 * (q / 2) : ℕ)) + k / 2 ^ (t + 1) := by
  have hn4 : 4 ≤ p * q := by have := h.bigL; have := h.bigR; nlinarith
  have hb0 : 0 < p * q / 4 := Nat.div_pos hn4 (by norm_num)
  haveI : Nonempty (Fin k → Fin (p * q / 4)) := ⟨fun _ => ⟨0, hb0⟩⟩
  -- the coins in the order base and coins of the adversary, exponents
  let E0 : ((ZMod (p * q))ˣ × C) × (Fin k → Fin (p * q / 4)) ≃
      (ZMod (p * q))ˣ × (Fin k → Fin (p * q / 4)) × C :=
    { toFun := fun s => (s.1.1, s.2, s.1.2), invFun := fun s => ((s.1, s.2.2), s.2.1),
      left_inv := fun _ => rfl, right_inv := fun _ => rfl }
  let E1 : (((ZMod (p * q))ˣ × C) × (Fin k → Fin (p * q * 2 ^ t))) × (ZMod (p * q))ˣ ≃
      (ZMod (p * q))ˣ × (Fin k → Fin (p * q * 2 ^ t)) × (ZMod (p * q))ˣ × C :=
    { toFun := fun s => (s.1.1.1, s.1.2, s.2, s.1.1.2), invFun := fun s => (((s.1, s.2.2.2), s.2.1), s.2.2.1),
      left_inv := fun _ => rfl, right_inv := fun _ => rfl }
  set G := prob fun s : ((ZMod (p * q))ˣ × C) × (Fin k → Fin (p * q * 2 ^ t)) =>
    GoodBase p q s.1.1.val.val ∧ Breaks A kk (p * q) s.1.1.val.val s.1.2 (fun i => (s.2 i).val) ∧
      gap A (p * q) s.1.1.val.val (fun i => (s.2 i).val) s.1.2 ≠ 0 with hG
  -- the factoring algorithm succeeds on half of these draws
  have f1 : G * (1 / 2) ≤ factorProb (p * q) k t A := by
    rw [hG, ← one_sided h, ← prob_and (fun s : ((ZMod (p * q))ˣ × C) × (Fin k → Fin (p * q * 2 ^ t)) =>
      GoodBase p q s.1.1.val.val ∧ Breaks A kk (p * q) s.1.1.val.val s.1.2 (fun i => (s.2 i).val) ∧
      gap A (p * q) s.1.1.val.val (fun i => (s.2 i).val) s.1.2 ≠ 0)
      (fun z : (ZMod (p * q))ˣ => OneSided p q z.val.val)]
    unfold factorProb
    rw [← prob_equiv E1]
    apply prob_mono
    rintro ⟨⟨⟨x, c⟩, w⟩, z⟩ ⟨⟨hx, hb, hg⟩, hz⟩
    exact factor_found h (Int.natAbs_ne_zero.2 hg)
      (Int.natCast_dvd.1 (gap_dvd h hk hk' A x hx c _ hb).2) z hz
  -- the adversary
  have b1 : bindProb (p * q) k kk A ≤
      prob (fun s : ((ZMod (p * q))ˣ × C) × (Fin k → Fin (p * q / 4)) =>
        (GoodBase p q s.1.1.val.val ∧ Breaks A kk (p * q) s.1.1.val.val s.1.2 (fun i => (s.2 i).val))) +
      prob (fun s : ((ZMod (p * q))ˣ × C) × (Fin k → Fin (p * q / 4)) =>
        ¬ GoodBase p q s.1.1.val.val) := by
    unfold bindProb
    rw [← prob_equiv E0]
    refine le_trans (prob_mono fun s hs => ?_) (prob_or_le _ _)
    obtain ⟨P, hP, ho⟩ := hs
    by_cases hg : GoodBase p q s.1.1.val.val
    · left
      refine ⟨hg, ?_⟩
      obtain ⟨e1, e2, e3⟩ := generated hn4 s.1.1.val.val (fun i => (s.2 i).val) (fun i => (s.2 i).isLt) hP
      rw [e1, e2, e3] at ho
      exact ho
    · exact Or.inr hg
  have b2 : prob (fun s : ((ZMod (p * q))ˣ × C) × (Fin k → Fin (p * q / 4)) =>
      ¬ GoodBase p q s.1.1.val.val) ≤ 1 / (p / 2 : ℕ) + 1 / (q / 2 : ℕ) := by
    rw [prob_fst fun a : (ZMod (p * q))ˣ × C => ¬ GoodBase p q a.1.val.val,
      prob_fst fun x : (ZMod (p * q))ˣ => ¬ GoodBase p q x.val.val]
    exact bad_rare h
  have b3 : prob (fun s : ((ZMod (p * q))ˣ × C) × (Fin k → Fin (p * q / 4)) =>
        (GoodBase p q s.1.1.val.val ∧ Breaks A kk (p * q) s.1.1.val.val s.1.2 (fun i => (s.2 i).val))) ≤
      G + (k * ((p / 2 + q / 2 : ℕ) : ℚ) / (2 * (p / 2 * (q / 2) : ℕ)) + k / 2 ^ (t + 1)) := by
    refine prob_avg (fun (a : (ZMod (p * q))ˣ × C) (w : Fin k → Fin (p * q / 4)) =>
        GoodBase p q a.1.val.val ∧ Breaks A kk (p * q) a.1.val.val a.2 (fun i => (w i).val))
      (fun (a : (ZMod (p * q))ˣ × C) (w : Fin k → Fin (p * q * 2 ^ t)) =>
        GoodBase p q a.1.val.val ∧ Breaks A kk (p * q) a.1.val.val a.2 (fun i => (w i).val) ∧
          gap A (p * q) a.1.val.val (fun i => (w i).val) a.2 ≠ 0) ?_
    rintro ⟨x, c⟩
    by_cases hx : GoodBase p q x.val.val
    · have := one_base (k := k) h hk hk' A x hx c t
      rw [← prob_pb _ (fun w : Fin k → Fin (p * q / 4) => GoodBase p q x.val.val ∧
          Breaks A kk (p * q) x.val.val c (fun i => (w i).val)) (fun w => by simp only [hx, true_and]),
        ← prob_pb _ (fun w : Fin k → Fin (p * q * 2 ^ t) => GoodBase p q x.val.val ∧
          Breaks A kk (p * q) x.val.val c (fun i => (w i).val) ∧
          gap A (p * q) x.val.val (fun i => (w i).val) c ≠ 0) (fun w => by simp only [hx, true_and])]
        at this
      exact this
    · have z : prob (fun w : Fin k → Fin (p * q / 4) => GoodBase p q x.val.val ∧
          Breaks A kk (p * q) x.val.val c (fun i => (w i).val)) = 0 := by
        unfold prob
        simp [hx]
      rw [z]
      have := prob_nonneg fun w : Fin k → Fin (p * q * 2 ^ t) => GoodBase p q x.val.val ∧
        Breaks A kk (p * q) x.val.val c (fun i => (w i).val) ∧
          gap A (p * q) x.val.val (fun i => (w i).val) c ≠ 0
      positivity
  have e : (1 : ℚ) / (p / 2 : ℕ) + 1 / (q / 2 : ℕ) =
      2 * ((p / 2 + q / 2 : ℕ) : ℚ) / (2 * (p / 2 * (q / 2) : ℕ)) := by
    have h1 : ((p / 2 : ℕ) : ℚ) ≠ 0 := by exact_mod_cast h.left.2.2.ne_zero
    have h2 : ((q / 2 : ℕ) : ℚ) ≠ 0 := by exact_mod_cast h.right.2.2.ne_zero
    rw [Nat.cast_add, Nat.cast_mul]
    field_simp
    ring
  have e' : ((k : ℚ) + 2) * ((p / 2 + q / 2 : ℕ) : ℚ) / (2 * (p / 2 * (q / 2) : ℕ)) =
      k * ((p / 2 + q / 2 : ℕ) : ℚ) / (2 * (p / 2 * (q / 2) : ℕ)) +
      2 * ((p / 2 + q / 2 : ℕ) : ℚ) / (2 * (p / 2 * (q / 2) : ℕ)) := by ring
  rw [e']
  linarith

/-- **C130**, in bits: halves of the primes of at least `b + 1` bits, and exponents drawn with as
many more bits. -/
theorem C130_bits [NeZero (p * q)] [Fintype C] [Nonempty C] (h : Safe2 p q) (hk : 1 ≤ kk)
    (hk' : kk < 31) (A : Breaker C) (b : Nat) (hp : 2 ^ b ≤ p / 2) (hq : 2 ^ b ≤ q / 2) :
    bindProb (p * q) k kk A ≤ 2 * factorProb (p * q) k b A + (2 * k + 2) / 2 ^ b := by
  have := C130_binding (k := k) h hk hk' A b
  have hp' : (2 ^ b : ℚ) ≤ (p / 2 : ℕ) := by exact_mod_cast hp
  have hq' : (2 ^ b : ℚ) ≤ (q / 2 : ℕ) := by exact_mod_cast hq
  have h2 : (0 : ℚ) < 2 ^ b := by positivity
  have e : ((k : ℚ) + 2) * ((p / 2 + q / 2 : ℕ) : ℚ) / (2 * (p / 2 * (q / 2) : ℕ)) ≤ (k + 2) / 2 ^ b := by
    have h1 : (0 : ℚ) < (p / 2 : ℕ) := lt_of_lt_of_le h2 hp'
    have h3 : (0 : ℚ) < (q / 2 : ℕ) := lt_of_lt_of_le h2 hq'
    rw [Nat.cast_add, Nat.cast_mul, div_le_div_iff₀ (by positivity) h2]
    generalize ((p / 2 : ℕ) : ℚ) = a at *
    generalize ((q / 2 : ℕ) : ℚ) = d at *
    have : (a + d) * 2 ^ b ≤ 2 * (a * d) := by nlinarith
    calc ((k : ℚ) + 2) * (a + d) * 2 ^ b = (k + 2) * ((a + d) * 2 ^ b) := by ring
      _ ≤ (k + 2) * (2 * (a * d)) := by gcongr
  have e2 : (k : ℚ) / 2 ^ (b + 1) ≤ k / 2 ^ b := by
    gcongr
    · norm_num
    · omega
  have e3 : ((k : ℚ) + 2) / 2 ^ b + k / 2 ^ b = (2 * k + 2) / 2 ^ b := by
    rw [← add_div]
    ring
  linarith

/-- Who knows the primes: the commitment 1, opened as 0 and as `(p-1)(q-1)/4`. -/
def knows (p q : Nat) : Breaker Unit := fun _ _ _ _ => (1, ([0], 0), ([((p / 2 * (q / 2) : ℕ) : Int)], 0))

/-- **C130**, the hypothesis that the party does not know the factors is needed: who knows them
opens a commitment in two ways with every draw of the parameters.  So the left side of
`C130_binding` is 1 here and the algorithm does factor. -/
theorem C130_trapdoor [NeZero (p * q)] (h : Safe2 p q) (hk : 1 ≤ kk) (hk' : kk < 31) (h0 : 0 < k) :
    bindProb (p * q) k kk (knows p q) = 1 := by
  have hn4 : 4 ≤ p * q := by have := h.bigL; have := h.bigR; nlinarith
  have hn1 : (1 : Int) < (p * q : ℕ) := by exact_mod_cast (by omega : 1 < p * q)
  have hb0 : 0 < p * q / 4 := Nat.div_pos hn4 (by norm_num)
  haveI : Nonempty (Fin k → Fin (p * q / 4)) := ⟨fun _ => ⟨0, hb0⟩⟩
  refine prob_eq_one ?_
  rintro ⟨x, w, c⟩
  have hx : Int.gcd (x.val.val : Int) (p * q : ℕ) = 1 := by
    have := ZMod.val_coe_unit_coprime x
    rw [Int.gcd_natCast_natCast]
    exact this
  obtain ⟨P, hP, -⟩ := C69_generated (p * q : ℕ) (x.val.val : Int) (List.ofFn fun i => (w i).val)
    (by exact_mod_cast hn4) hx
  obtain ⟨e1, e2, e3⟩ := generated hn4 x.val.val (fun i => (w i).val) (fun i => (w i).isLt) hP
  refine ⟨P, hP, ?_⟩
  rw [e1, e2, e3]
  obtain ⟨ped, hc, Gd⟩ := create_good (gs := gens (p * q) ((x.val.val : Int) ^ 2 % (p * q : ℕ))
    fun i => (w i).val) (h := (x.val.val : Int) ^ 2 % (p * q : ℕ)) (n := (p * q : ℕ)) (k := kk) hn1 hk hk'
  obtain ⟨j, rfl⟩ : ∃ j, k = j + 1 := ⟨k - 1, by omega⟩
  have hlen : (gens (p * q) ((x.val.val : Int) ^ 2 % (p * q : ℕ)) fun i => (w i).val).length = j + 1 := by
    simp [gens]
  have v1 : Valid (gens (p * q) ((x.val.val : Int) ^ 2 % (p * q : ℕ)) fun i => (w i).val) [0] 0 :=
    ⟨by rw [hlen]; simp, by simp, le_refl _⟩
  have v2 : Valid (gens (p * q) ((x.val.val : Int) ^ 2 % (p * q : ℕ)) fun i => (w i).val)
      [((p / 2 * (q / 2) : ℕ) : Int)] 0 :=
    ⟨by rw [hlen]; simp, by intro m hm; rw [List.mem_singleton.1 hm]; positivity, le_refl _⟩
  have one : (1 : Int) % (p * q : ℕ) = 1 := Int.emod_eq_of_lt (by norm_num) hn1
  refine ⟨ped, hc, ?_, ?_, 0, ?_⟩
  · show Ped.verify ped 1 [0] 0 = _
    rw [Gd.verify v1]
    simp [commitment, prodOfPowers, gens, List.ofFn_succ]
    exact_mod_cast one.symm
  · show Ped.verify ped 1 [((p / 2 * (q / 2) : ℕ) : Int)] 0 = _
    rw [Gd.verify v2]
    have key : (((x.val.val : Int) ^ 2 % (p * q : ℕ)) ^ (w 0).val % (p * q : ℕ)) ^ (p / 2 * (q / 2)) %
        (p * q : ℕ) = 1 := by
      have h1 := ((Int.mod_modEq (((x.val.val : Int) ^ 2 % (p * q : ℕ)) ^ (w 0).val) (p * q : ℕ)).pow
        (p / 2 * (q / 2)))
      rw [← pow_mul, mul_comm (w 0).val, pow_mul _ (p / 2 * (q / 2)) (w 0).val] at h1
      have h2 := (square_period h x).pow (w 0).val
      rw [one_pow] at h2
      exact (show _ % _ = _ % _ from h1.trans h2).trans one
    unfold commitment prodOfPowers gens
    rw [List.ofFn_succ]
    simp only [List.zipWith_cons_cons, List.zipWith_nil_right, List.prod_cons, List.prod_nil, mul_one,
      Int.toNat_natCast, Int.toNat_zero, pow_zero, key]
    simp
  · show (0 : Int) ≠ ((p / 2 * (q / 2) : ℕ) : Int)
    have := h.pos
    exact_mod_cast this.ne

/-- 23 and 47 meet the hypotheses. -/
theorem safe_23_47 : Safe2 23 47 := by
  refine ⟨⟨?_, ?_, ?_⟩, ⟨?_, ?_, ?_⟩, ?_, ?_, ?_⟩ <;> norm_num

/-- Both sides for `n = 1081`: the party that knows 23 and 47 always opens twice, and so the factoring
algorithm, that runs them, succeeds with a third of its draws at least. -/
theorem C130_reached : bindProb (23 * 47) 1 3 (knows 23 47) = 1 ∧
    1 / 3 < factorProb (23 * 47) 1 3 (knows 23 47) := by
  have h1 := C130_trapdoor (k := 1) (kk := 3) safe_23_47 (by norm_num) (by norm_num) (by norm_num)
  refine ⟨h1, ?_⟩
  have := C130_binding (k := 1) (kk := 3) safe_23_47 (by norm_num) (by norm_num) (knows 23 47) 3
  rw [h1] at this
  norm_num at this
  linarith

end
end PJC.PedBind
