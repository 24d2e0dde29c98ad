import Verif.Lemmas.RandomOracle
/-
C136: the numbers that the Python generator draws are uniform and independent when SHA-512 is a random
function.

Specification.  SHA-512 has random values on a finite set of inputs that contains those the generator
uses.  `results` are the numbers that a new generator gives for a list of limits, if it gives them all.
-/
namespace PJC.Py.Prng
open PJC PJC.Prob PJC.Oracle Finset

/-! ### Specification -/

/-- The numbers below the limits `us` that a new generator gives one after the other; `none` if one of
the calls raises an exception or needs more than `fuel` draws. -/
def results (H : Hashes) (fuel : Nat) (seed : Bytes) (counterLen : Nat) (us : List Int) :
    Option (List Int) :=
  match Prng.init (.bytes seed) counterLen with
  | .ok s => (getRands H fuel s us).map Prod.fst
  | .raises _ => none

/-- `xs` are numbers below the limits `us`. -/
def Below (us xs : List Int) : Prop := List.Forall₂ (fun u x => 0 ≤ x ∧ x < u) us xs

/-- The inputs of SHA-512 for a seed. -/
def inputs (counterLen : Nat) (seed : Bytes) (i : Nat) : Bytes := beBytes (max counterLen 1) i ++ seed

/-- The product of the limits. -/
def product (us : List Int) : ℚ := (us.map fun u : Int => (u : ℚ)).prod

/-- The number of bytes for `k` draws of each limit. -/
def need (k : Nat) (us : List Int) : Nat := (us.map fun u => k * chunk (bits u)).sum

/-! ### Probabilities -/

section
variable {α β : Type} [Fintype α] [Fintype β]

theorem prob_indep (p : α → Prop) (q : β → Prop) [DecidablePred p] [DecidablePred q] :
    prob (fun t : α × β => p t.1 ∧ q t.2) = prob p * prob q := by
  unfold prob
  have : (univ.filter fun t : α × β => p t.1 ∧ q t.2) = univ.filter p ×ˢ univ.filter q := by
    ext ⟨a, b⟩
    simp
  rw [this, card_product, Fintype.card_prod]
  push_cast
  rw [div_mul_div_comm]

theorem prob_or_disjoint (p q : α → Prop) [DecidablePred p] [DecidablePred q] (h : ∀ a, p a → ¬ q a) :
    prob (fun a => p a ∨ q a) = prob p + prob q := by
  classical
  unfold prob
  rw [filter_or, card_union_of_disjoint]
  · push_cast
    rw [add_div]
  · rw [disjoint_filter]
    exact fun a _ h1 => h a h1

theorem prob_false {p : α → Prop} [DecidablePred p] (h : ∀ a, ¬ p a) : prob p = 0 := by
  unfold prob
  rw [filter_eq_empty_iff.2 fun a _ => h a]
  simp
end

/-! ### Counting streams of bytes -/

theorem draw_append {u : Int} {c w b : Bytes} {x : Int} (hc : c.length = chunk (bits u)) :
    Draw u (c ++ w) x b ↔ (value (bits u) c = x ∧ x < u ∧ b = w) ∨ (u ≤ value (bits u) c ∧ Draw u w x b) := by
  constructor
  · intro h
    generalize hw : c ++ w = z at h
    cases h with
    | accept c' _ hc' hv =>
      obtain ⟨rfl, rfl⟩ := List.append_inj hw (hc.trans hc'.symm)
      exact Or.inl ⟨rfl, hv, rfl⟩
    | reject c' _ _ _ hc' hv h =>
      obtain ⟨rfl, rfl⟩ := List.append_inj hw (hc.trans hc'.symm)
      exact Or.inr ⟨hv, h⟩
  · rintro (⟨rfl, h, rfl⟩ | ⟨h, hd⟩)
    · exact .accept _ _ hc h
    · exact .reject _ _ _ _ hc h hd

theorem draw_short {u : Int} {w b : Bytes} {x : Int} (h : Draw u w x b) : chunk (bits u) ≤ w.length := by
  cases h with
  | accept c _ hc _ => simp; omega
  | reject c _ _ _ hc _ _ => simp; omega

theorem draws_cons {u x : Int} {us xs : List Int} {w rest : Bytes} :
    Draws (u :: us) w (x :: xs) rest ↔ ∃ b, Draw u w x b ∧ Draws us b xs rest := by
  constructor
  · rintro (_ | ⟨h, t⟩)
    exact ⟨_, h, t⟩
  · rintro ⟨b, h, t⟩
    exact .cons h t

open scoped Classical in
/-- The probability that random bytes give `xs`. -/
noncomputable def mass (T : Nat) (us xs : List Int) : ℚ :=
  prob fun w : Fin T → Byte => ∃ rest, Draws us (List.ofFn w) xs rest

open scoped Classical in
/-- The probability that the first chunk is accepted as `x`, or rejected. -/
theorem prob_value_eq (n v : Nat) (hv : v < 2 ^ n) :
    prob (fun c : Fin (chunk n) → Byte => value n (List.ofFn c) = v) = 1 / 2 ^ n := by
  have e : ((univ.filter fun c : Fin (chunk n) → Byte => value n (List.ofFn c) = v).card : ℕ) =
      2 ^ (8 * chunk n - n) := by
    rw [← C115_unbiased n v hv, ← Fintype.card_subtype, ← Nat.card_eq_fintype_card]
    apply Nat.card_congr
    refine Equiv.ofBijective (fun c => ⟨List.ofFn c.1, List.length_ofFn, c.2⟩) ⟨?_, ?_⟩
    · intro c d h
      exact Subtype.ext (List.ofFn_injective (congrArg Subtype.val h))
    · rintro ⟨l, hl, hv⟩
      refine ⟨⟨fun i => l[i.val]'(by omega), ?_⟩, ?_⟩
      · have : (List.ofFn fun i : Fin (chunk n) => l[i.val]'(by omega)) = l := by
          apply List.ext_getElem <;> simp [hl]
        rw [this]; exact hv
      · apply Subtype.ext
        apply List.ext_getElem <;> simp [hl]
  unfold prob
  rw [e, Fintype.card_fun, Fintype.card_fin, Fintype.card_fin]
  have h8 : n ≤ 8 * chunk n := by unfold chunk; omega
  have : (256 : ℕ) ^ chunk n = 2 ^ n * 2 ^ (8 * chunk n - n) := by
    rw [← pow_add, Nat.add_sub_cancel' h8, pow_mul]; norm_num
  rw [this]
  push_cast
  have h1 : (2 : ℚ) ^ (8 * chunk n - n) ≠ 0 := by positivity
  field_simp

open scoped Classical in
/-- The probability that a chunk is rejected. -/
noncomputable def rejects (u : Int) : ℚ :=
  prob fun c : Fin (chunk (bits u)) → Byte => u ≤ value (bits u) (List.ofFn c)

theorem below_bits {u x : Int} (h0 : 0 ≤ x) (h : x < u) : x.toNat < 2 ^ bits u := by
  have h1 := (C115_acceptance (upper := u) (by omega)).1
  have : ((x.toNat : Nat) : Int) < 2 ^ bits u := by omega
  exact_mod_cast this

theorem mass_cons {T : Nat} {u x : Int} {us xs : List Int} (h0 : 0 ≤ x) (hx : x < u) :
    mass (chunk (bits u) + T) (u :: us) (x :: xs) =
      1 / 2 ^ bits u * mass T us xs + rejects u * mass T (u :: us) (x :: xs) := by
  classical
  unfold mass
  rw [← prob_equiv (Fin.appendEquiv (chunk (bits u)) T)]
  have e : ∀ t : (Fin (chunk (bits u)) → Byte) × (Fin T → Byte),
      (∃ rest, Draws (u :: us) (List.ofFn (Fin.appendEquiv _ T t)) (x :: xs) rest) ↔
      (value (bits u) (List.ofFn t.1) = (x.toNat : Int) ∧ ∃ rest, Draws us (List.ofFn t.2) xs rest) ∨
      (u ≤ value (bits u) (List.ofFn t.1) ∧ ∃ rest, Draws (u :: us) (List.ofFn t.2) (x :: xs) rest) := by
    rintro ⟨c, w⟩
    rw [show (Fin.appendEquiv (chunk (bits u)) T) (c, w) = Fin.append c w from rfl, List.ofFn_fin_append,
      Int.toNat_of_nonneg h0]
    simp only [draws_cons, draw_append (c := List.ofFn c) List.length_ofFn]
    constructor
    · rintro ⟨rest, b, (⟨h1, -, rfl⟩ | ⟨h1, h2⟩), h3⟩
      · exact Or.inl ⟨h1, rest, h3⟩
      · exact Or.inr ⟨h1, rest, b, h2, h3⟩
    · rintro (⟨h1, rest, h3⟩ | ⟨h1, rest, b, h2, h3⟩)
      · exact ⟨rest, _, Or.inl ⟨h1, hx, rfl⟩, h3⟩
      · exact ⟨rest, b, Or.inr ⟨h1, h2⟩, h3⟩
  rw [prob_congr e, prob_or_disjoint, prob_indep (α := Fin (chunk (bits u)) → Byte) (β := Fin T → Byte)
    (fun c => value (bits u) (List.ofFn c) = (x.toNat : Int))
    (fun w => ∃ rest, Draws us (List.ofFn w) xs rest),
    prob_indep (α := Fin (chunk (bits u)) → Byte) (β := Fin T → Byte)
    (fun c => u ≤ value (bits u) (List.ofFn c))
    (fun w => ∃ rest, Draws (u :: us) (List.ofFn w) (x :: xs) rest),
    prob_value_eq _ _ (below_bits h0 hx)]
  · rfl
  · rintro t ⟨h1, -⟩ ⟨h2, -⟩
    rw [h1] at h2
    omega

theorem mass_short {T : Nat} {u x : Int} {us xs : List Int} (h : T < chunk (bits u)) :
    mass T (u :: us) (x :: xs) = 0 := by
  classical
  refine prob_false fun w => ?_
  rintro ⟨rest, hd⟩
  obtain ⟨b, hd, -⟩ := draws_cons.1 hd
  have := draw_short hd
  rw [List.length_ofFn] at this
  omega

theorem rejects_one {u : Int} (hu : 1 ≤ u) (h : chunk (bits u) = 0) : rejects u = 0 := by
  classical
  refine prob_false fun c hc => ?_
  have hb : bits u = 0 := by unfold chunk at h; omega
  have hz : value (bits u) (List.ofFn c) = 0 := by
    have : List.ofFn c = [] := List.length_eq_zero_iff.1 (by rw [List.length_ofFn, h])
    rw [this, hb]; rfl
  rw [hz] at hc
  omega

theorem value_nonneg (n : Nat) (bs : Bytes) : 0 ≤ value n bs := by
  unfold value
  exact Int.ediv_nonneg (BN.ofBytes_nonneg bs) (by positivity)

open scoped Classical in
theorem prob_value_lt (n : Nat) : ∀ v : Nat, v ≤ 2 ^ n →
    prob (fun c : Fin (chunk n) → Byte => value n (List.ofFn c) < v) = v / 2 ^ n
  | 0, _ => by
    rw [prob_false fun c => by have := value_nonneg n (List.ofFn c); omega]
    simp
  | v + 1, h => by
    rw [prob_congr (T := fun c : Fin (chunk n) → Byte =>
      value n (List.ofFn c) < v ∨ value n (List.ofFn c) = v) fun c => by omega,
      prob_or_disjoint _ _ fun c => by omega, prob_value_lt n v (by omega), prob_value_eq n v (by omega)]
    push_cast
    ring

theorem rejects_eq {u : Int} (hu : 1 ≤ u) : rejects u = 1 - u / 2 ^ bits u := by
  classical
  obtain ⟨m, rfl⟩ := Int.eq_ofNat_of_zero_le (by omega : 0 ≤ u)
  have h1 := (C115_acceptance hu).1
  have h2 := prob_value_lt (bits m) m (by exact_mod_cast h1)
  have h3 := prob_or_disjoint (fun c : Fin (chunk (bits (m : Int))) → Byte => value (bits m) (List.ofFn c) < m)
    (fun c => (m : Int) ≤ value (bits m) (List.ofFn c)) fun c => by omega
  have h4 : prob (fun c : Fin (chunk (bits (m : Int))) → Byte => value (bits m) (List.ofFn c) < m ∨
      (m : Int) ≤ value (bits m) (List.ofFn c)) = 1 := by
    unfold prob
    rw [filter_true_of_mem fun c _ => by omega, card_univ, div_self]
    exact_mod_cast Fintype.card_ne_zero
  rw [h4, h2] at h3
  unfold rejects
  push_cast
  linarith only [h3]

theorem rejects_le {u : Int} (hu : 1 ≤ u) : rejects u ≤ 1 / 2 := by
  rw [rejects_eq hu]
  have h := (C115_acceptance hu).2
  have h' : (2 : ℚ) ^ bits u < 2 * u := by exact_mod_cast h
  have h0 : (0 : ℚ) < 2 ^ bits u := by positivity
  rw [sub_le_iff_le_add, ← sub_le_iff_le_add', le_div_iff₀ h0]
  linarith only [h']

theorem rejects_nonneg (u : Int) : 0 ≤ rejects u := by
  classical
  exact prob_nonneg _

theorem mass_nonneg (T : Nat) (us xs : List Int) : 0 ≤ mass T us xs := by
  classical
  exact prob_nonneg _

theorem draw_more {u x : Int} {w b : Bytes} (h : Draw u w x b) (v : Bytes) : Draw u (w ++ v) x (b ++ v) := by
  induction h with
  | accept c w hc h => rw [List.append_assoc]; exact .accept _ _ hc h
  | reject c w x b hc h _ ih => rw [List.append_assoc]; exact .reject _ _ _ _ hc h ih

theorem draws_more : ∀ {us xs : List Int} {w rest : Bytes}, Draws us w xs rest → ∀ v,
    Draws us (w ++ v) xs (rest ++ v)
  | [], [], _, _, .nil _, _ => .nil _
  | _ :: _, _ :: _, _, _, .cons h t, v => .cons (draw_more h v) (draws_more t v)

/-- More bytes make a result more likely. -/
theorem mass_mono (T k : Nat) (us xs : List Int) : mass T us xs ≤ mass (T + k) us xs := by
  classical
  unfold mass
  rw [← prob_equiv (Fin.appendEquiv T k), ← prob_fst (β := Fin k → Byte)]
  apply prob_mono
  rintro ⟨w, v⟩ ⟨rest, h⟩
  refine ⟨rest ++ List.ofFn v, ?_⟩
  rw [show (Fin.appendEquiv T k) (w, v) = Fin.append w v from rfl, List.ofFn_fin_append]
  exact draws_more h _

theorem mass_le : ∀ {us xs : List Int}, Below us xs → ∀ T, mass T us xs ≤ 1 / product us
  | [], _, .nil, T => by
    classical
    rw [product, List.map_nil, List.prod_nil, div_one]
    exact prob_le_one _
  | u :: us, x :: xs, .cons hx hxs, T => by
    have ih := mass_le (us := us) hxs
    have hu : (1 : Int) ≤ u := by omega
    have hu' : (0 : ℚ) < u := by exact_mod_cast hu
    have h0 : (0 : ℚ) < 2 ^ bits u := by positivity
    have hp : 0 ≤ 1 / product us := (mass_nonneg 0 us xs).trans (ih 0)
    have e : product (u :: us) = u * product us := by simp [product]
    have hq : 1 / product (u :: us) = 1 / product us / u := by
      rw [e, div_div, mul_comm]
    rw [hq]
    induction T using Nat.strong_induction_on with
    | _ T iT =>
      rcases Nat.lt_or_ge T (chunk (bits u)) with h | h
      · rw [mass_short h]; positivity
      · obtain ⟨T', rfl⟩ := Nat.exists_eq_add_of_le h
        rw [mass_cons hx.1 hx.2]
        have step : rejects u * mass T' (u :: us) (x :: xs) ≤ rejects u * (1 / product us / u) := by
          rcases Nat.eq_zero_or_pos (chunk (bits u)) with h0 | h0
          · rw [rejects_one (by omega) h0, zero_mul, zero_mul]
          · exact mul_le_mul_of_nonneg_left (iT T' (by omega)) (rejects_nonneg u)
        have s2 : 1 / 2 ^ bits u * mass T' us xs ≤ 1 / 2 ^ bits u * (1 / product us) :=
          mul_le_mul_of_nonneg_left (ih T') (by positivity)
        refine (add_le_add s2 step).trans_eq ?_
        rw [rejects_eq hu]
        field_simp
        ring

theorem mass_ge_one {u x : Int} {us xs : List Int} (h0 : 0 ≤ x) (hx : x < u) (T : Nat) : ∀ k : Nat,
    (1 - rejects u ^ k) / u * mass T us xs ≤ mass (k * chunk (bits u) + T) (u :: us) (x :: xs)
  | 0 => by simp [mass_nonneg]
  | k + 1 => by
    have hu : (1 : Int) ≤ u := by omega
    have hu' : (0 : ℚ) < u := by exact_mod_cast hu
    have h2 : (0 : ℚ) < 2 ^ bits u := by positivity
    rw [show (k + 1) * chunk (bits u) + T = chunk (bits u) + (k * chunk (bits u) + T) by ring,
      mass_cons h0 hx]
    have i1 := mul_le_mul_of_nonneg_left (mass_ge_one (us := us) (xs := xs) h0 hx T k) (rejects_nonneg u)
    have i2 : 1 / 2 ^ bits u * mass T us xs ≤ 1 / 2 ^ bits u * mass (k * chunk (bits u) + T) us xs := by
      apply mul_le_mul_of_nonneg_left _ (by positivity)
      rw [add_comm]
      exact mass_mono _ _ _ _
    refine le_trans (le_of_eq ?_) (add_le_add i2 i1)
    have e : (1 : ℚ) / 2 ^ bits u = (1 - rejects u) / u := by
      rw [rejects_eq hu]; field_simp; ring
    rw [e]
    field_simp
    ring

theorem mass_ge (k : Nat) : ∀ {us xs : List Int}, Below us xs → ∀ T, need k us ≤ T →
    (1 - 1 / 2 ^ k) ^ us.length / product us ≤ mass T us xs
  | [], _, .nil, T, _ => by
    classical
    have : mass T [] [] = 1 := by
      unfold mass prob
      rw [filter_true_of_mem fun w _ => ⟨_, .nil _⟩, card_univ, div_self]
      exact_mod_cast Fintype.card_ne_zero
    rw [this]; simp [product]
  | u :: us, x :: xs, .cons hx hxs, T, hT => by
    have hu : (1 : Int) ≤ u := by omega
    have hu' : (0 : ℚ) < u := by exact_mod_cast hu
    have hn : need k (u :: us) = k * chunk (bits u) + need k us := by simp [need]
    obtain ⟨d, rfl⟩ := Nat.exists_eq_add_of_le hT
    have ih := mass_ge k hxs _ le_rfl
    have h1 := mass_ge_one (us := us) (xs := xs) hx.1 hx.2 (need k us) k
    have h2 := mass_mono (need k (u :: us)) d (u :: us) (x :: xs)
    rw [hn] at h2
    rw [hn]
    refine le_trans ?_ (h1.trans h2)
    have r1 : rejects u ^ k ≤ 1 / 2 ^ k := by
      rw [← one_div_pow]
      exact pow_le_pow_left₀ (rejects_nonneg u) (rejects_le hu) k
    have e : (1 - 1 / 2 ^ k : ℚ) ^ (u :: us).length / product (u :: us) =
        (1 - 1 / 2 ^ k) / u * ((1 - 1 / 2 ^ k) ^ us.length / product us) := by
      rw [List.length_cons, show product (u :: us) = u * product us by simp [product], pow_succ]
      rw [div_mul_div_comm, mul_comm]
    rw [e]
    have r0 : (0 : ℚ) ≤ 1 - 1 / 2 ^ k := by
      rw [sub_nonneg, ← one_div_pow]
      exact pow_le_one₀ (by norm_num) (by norm_num)
    have r2 : (1 - 1 / 2 ^ k : ℚ) / u ≤ (1 - rejects u ^ k) / u :=
      div_le_div_of_nonneg_right (by linarith only [r1]) hu'.le
    calc _ ≤ (1 - 1 / 2 ^ k) / u * mass (need k us) us xs :=
          mul_le_mul_of_nonneg_left ih (div_nonneg r0 hu'.le)
      _ ≤ _ := mul_le_mul_of_nonneg_right r2 (mass_nonneg _ _ _)

/-- All results are equally likely. -/
theorem mass_eq : ∀ {us xs ys : List Int}, Below us xs → Below us ys → ∀ T, mass T us xs = mass T us ys
  | [], _, _, .nil, .nil, _ => rfl
  | u :: us, x :: xs, y :: ys, .cons hx hxs, .cons hy hys, T => by
    have ih := mass_eq (us := us) hxs hys
    induction T using Nat.strong_induction_on with
    | _ T iT =>
      rcases Nat.lt_or_ge T (chunk (bits u)) with h | h
      · rw [mass_short h, mass_short h]
      · obtain ⟨T', rfl⟩ := Nat.exists_eq_add_of_le h
        rw [mass_cons hx.1 hx.2, mass_cons hy.1 hy.2, ih T']
        rcases Nat.eq_zero_or_pos (chunk (bits u)) with h0 | h0
        · rw [rejects_one (by omega) h0, zero_mul, zero_mul]
        · rw [iT T' (by omega)]

/-! ### The stream of a random function -/

theorem blocksFrom_eq (H : Hashes) (o : Bytes → Digest) (seed : Bytes) (counterLen : Nat) :
    ∀ n i, blocksFrom (withSha512 H o) seed counterLen i n =
      (List.ofFn fun j : Fin n => List.ofFn (o (inputs counterLen seed (i + j)))).flatten
  | 0, _ => rfl
  | n + 1, i => by
    rw [blocksFrom, blocksFrom_eq H o seed counterLen n, List.ofFn_succ, List.flatten_cons]
    simp only [Fin.val_zero, add_zero, Fin.val_succ, block, withSha512, inputs]
    congr 3
    funext j
    rw [show i + 1 + (j : Nat) = i + (j + 1) by omega]

theorem stream_length (H : Hashes) (o : Bytes → Digest) (seed : Bytes) (counterLen : Nat) :
    (stream (withSha512 H o) seed counterLen).length = 256 ^ counterLen * 64 := by
  rw [stream, blocksFrom_eq]
  simp [List.length_flatten, Function.comp_def]

section
variable {X Y : Type} [DecidableEq X] [Fintype Y] [Nonempty Y]

open scoped Classical in
/-- Values of a random function at different inputs are independent and uniform. -/
theorem prob_points {ι : Type} [Fintype ι] [DecidableEq ι] {D : Finset X} (pt : ι → D)
    (hpt : Function.Injective pt) (S : (ι → Y) → Prop) : prob (fun f : D → Y => S fun i => f (pt i)) = prob S := by
  let e1 : (D → Y) ≃ ({d // d ∈ Set.range pt} → Y) × ({d // ¬ d ∈ Set.range pt} → Y) :=
    Equiv.piEquivPiSubtypeProd (fun d => d ∈ Set.range pt) fun _ => Y
  let e2 : ({d // d ∈ Set.range pt} → Y) ≃ (ι → Y) :=
    Equiv.arrowCongr (Equiv.ofInjective pt hpt).symm (Equiv.refl Y)
  have h1 := prob_equiv e1 fun t => S (e2 t.1)
  have h2 := prob_fst (β := {d // ¬ d ∈ Set.range pt} → Y) fun g => S (e2 g)
  have h3 := prob_equiv e2 S
  exact (prob_congr fun _ => Iff.rfl).trans (h1.trans (h2.trans h3))
end

theorem inputs_inj {counterLen : Nat} {seed : Bytes} {i j : Nat} (hi : i < 256 ^ counterLen)
    (hj : j < 256 ^ counterLen) (h : inputs counterLen seed i = inputs counterLen seed j) : i = j :=
  (C115_inputs counterLen i j hi hj seed seed h).1

open scoped Classical in
/-- The stream of a random function is a string of random bytes. -/
theorem prob_stream (H : Hashes) (B : Bytes → Digest) (seed : Bytes) (counterLen : Nat) (D : Finset Bytes)
    (hD : ∀ i < 256 ^ counterLen, inputs counterLen seed i ∈ D) (S : Bytes → Prop) :
    prob (fun f : D → Digest => S (stream (withSha512 H (graft B D f)) seed counterLen)) =
      prob fun w : Fin (256 ^ counterLen * 64) → Byte => S (List.ofFn w) := by
  let pt : Fin (256 ^ counterLen) → D := fun i => ⟨inputs counterLen seed i, hD i i.isLt⟩
  have hpt : Function.Injective pt := fun i j h =>
    Fin.ext (inputs_inj i.isLt j.isLt (congrArg Subtype.val h))
  have e1 : ∀ f : D → Digest, S (stream (withSha512 H (graft B D f)) seed counterLen) ↔
      S ((List.ofFn fun i => List.ofFn (f (pt i))).flatten) := by
    intro f
    rw [stream, blocksFrom_eq]
    have : (fun j : Fin (256 ^ counterLen) => List.ofFn (graft B D f (inputs counterLen seed (0 + j)))) =
        fun i => List.ofFn (f (pt i)) := by
      funext j
      rw [zero_add, graft_mem B (hD j j.isLt)]
    rw [this]
  rw [prob_congr e1, prob_points pt hpt fun g => S ((List.ofFn fun i => List.ofFn (g i)).flatten)]
  let e : (Fin (256 ^ counterLen * 64) → Byte) ≃ (Fin (256 ^ counterLen) → Digest) :=
    (Equiv.arrowCongr finProdFinEquiv.symm (Equiv.refl Byte)).trans (Equiv.curry _ _ _)
  rw [← prob_equiv e]
  apply prob_congr
  intro w
  rw [List.ofFn_mul]
  have : (fun i : Fin (256 ^ counterLen) => List.ofFn (e w i)) =
      fun i : Fin (256 ^ counterLen) => List.ofFn fun j : Fin 64 => w ⟨i * 64 + j, by
        have := i.isLt; have := j.isLt
        calc (i : Nat) * 64 + j < (i + 1) * 64 := by omega
          _ ≤ _ := Nat.mul_le_mul_right _ (by omega)⟩ := by
    funext i
    congr 1
    funext j
    show w (finProdFinEquiv (i, j)) = _
    congr 1
    apply Fin.ext
    simp [finProdFinEquiv]
    ring
  rw [this]

/-! ### The generator -/

theorem draw_length {u x : Int} {w b : Bytes} (h : Draw u w x b) : b.length ≤ w.length := by
  induction h with
  | accept => simp
  | reject _ _ _ _ _ _ _ ih => simp; omega

theorem getRands_some (H : Hashes) (fuel : Nat) : ∀ {us xs : List Int} {s : Prng} {rest : Bytes}, Good s →
    (remaining H s).length < fuel → Draws us (remaining H s) xs rest →
    (getRands H fuel s us).map Prod.fst = some xs
  | [], _, s, _, _, _, .nil _ => rfl
  | u :: us, x :: xs, s, rest, hg, hf, hd => by
    obtain ⟨b, h1, h2⟩ := draws_cons.1 hd
    obtain ⟨g1, g2, g3⟩ := C115_getRand H hg u fuel
    obtain ⟨⟨o, s'⟩, ho⟩ := Option.isSome_iff_exists.1 (g3 hf)
    cases o with
    | raises e => exact absurd h1 ((g2 e s' ho).2.2.1 x b)
    | ok r =>
      obtain ⟨hg', -, -, hd'⟩ := g1 r s' ho
      obtain ⟨rfl, rfl⟩ := C115_draw_unique h1 hd'
      have := getRands_some H fuel hg' (by have := draw_length hd'; omega) h2
      rw [getRands, ho]
      cases hr : getRands H fuel s' us with
      | none => rw [hr] at this; cases this
      | some y =>
        rw [hr] at this
        show Option.map Prod.fst (Option.map (fun y => (x :: y.1, y.2)) (getRands H fuel s' us)) = _
        rw [hr]
        simp only [Option.map_some, Option.some.injEq] at this ⊢
        rw [this]

theorem results_iff (H : Hashes) (o : Bytes → Digest) {fuel : Nat} {seed : Bytes} (hs : 32 ≤ seed.length)
    {counterLen : Nat} (hf : 256 ^ counterLen * 64 < fuel) (us xs : List Int) :
    results (withSha512 H o) fuel seed counterLen us = some xs ↔
      ∃ rest, Draws us (stream (withSha512 H o) seed counterLen) xs rest := by
  obtain ⟨s, h⟩ := (C115_seed seed counterLen).2 hs
  obtain ⟨hg, e⟩ := C115_start (withSha512 H o) h
  rw [results, h]
  constructor
  · intro hr
    obtain ⟨⟨rs, s'⟩, h1, rfl⟩ := Option.map_eq_some_iff.1 hr
    exact C115_history _ h fuel us rs s' h1
  · rintro ⟨rest, hd⟩
    rw [← e] at hd
    exact getRands_some _ fuel hg (by rw [e, stream_length]; exact hf) hd

open scoped Classical in
theorem prob_results (H : Hashes) (B : Bytes → Digest) {seed : Bytes} (hs : 32 ≤ seed.length)
    {counterLen : Nat} {D : Finset Bytes} (hD : ∀ i < 256 ^ counterLen, inputs counterLen seed i ∈ D)
    {fuel : Nat} (hf : 256 ^ counterLen * 64 < fuel) (us xs : List Int) :
    prob (fun f : D → Digest => results (withSha512 H (graft B D f)) fuel seed counterLen us = some xs) =
      mass (256 ^ counterLen * 64) us xs := by
  rw [prob_congr fun f => results_iff H (graft B D f) hs hf us xs,
    prob_stream H B seed counterLen D hD fun w => ∃ rest, Draws us w xs rest]
  rfl

/-! ### C136 -/

open scoped Classical in
/-- **C136**.  When SHA-512 is a random function, a new generator gives any two lists of numbers below
given limits with the same probability. -/
theorem C136_uniform (H : Hashes) (B : Bytes → Digest) (seed : Bytes) (hs : 32 ≤ seed.length)
    (counterLen : Nat) (D : Finset Bytes) (hD : ∀ i < 256 ^ counterLen, inputs counterLen seed i ∈ D)
    (fuel : Nat) (hf : 256 ^ counterLen * 64 < fuel) (us xs ys : List Int) (hx : Below us xs)
    (hy : Below us ys) :
    prob (fun f : D → Digest => results (withSha512 H (graft B D f)) fuel seed counterLen us = some xs) =
      prob fun f : D → Digest => results (withSha512 H (graft B D f)) fuel seed counterLen us = some ys := by
  rw [prob_results H B hs hD hf, prob_results H B hs hD hf, mass_eq hx hy]

open scoped Classical in
/-- **C136**.  Each list of numbers below the limits has at most the probability that independent uniform
numbers give it, and a fraction `(1 - 2 ^ -k)` per number of it at least, if the stream has bytes for `k`
draws of each number. -/
theorem C136_near_uniform (H : Hashes) (B : Bytes → Digest) (seed : Bytes) (hs : 32 ≤ seed.length)
    (counterLen : Nat) (D : Finset Bytes) (hD : ∀ i < 256 ^ counterLen, inputs counterLen seed i ∈ D)
    (fuel : Nat) (hf : 256 ^ counterLen * 64 < fuel) (us xs : List Int) (hx : Below us xs) (k : Nat)
    (hk : need k us ≤ 256 ^ counterLen * 64) :
    (1 - 1 / 2 ^ k) ^ us.length / product us ≤
        prob (fun f : D → Digest => results (withSha512 H (graft B D f)) fuel seed counterLen us = some xs) ∧
      prob (fun f : D → Digest => results (withSha512 H (graft B D f)) fuel seed counterLen us = some xs) ≤
        1 / product us := by
  rw [prob_results H B hs hD hf]
  exact ⟨mass_ge k hx _ hk, mass_le hx _⟩

open scoped Classical in
/-- **C136**.  What generators with different seeds give is independent. -/
theorem C136_seeds (H : Hashes) (B : Bytes → Digest) (seed seed' : Bytes) (hs : 32 ≤ seed.length)
    (hs' : 32 ≤ seed'.length) (hne : seed ≠ seed') (counterLen : Nat) (D : Finset Bytes)
    (hD : ∀ i < 256 ^ counterLen, inputs counterLen seed i ∈ D)
    (hD' : ∀ i < 256 ^ counterLen, inputs counterLen seed' i ∈ D)
    (fuel : Nat) (hf : 256 ^ counterLen * 64 < fuel) (us us' xs xs' : List Int) :
    prob (fun f : D → Digest =>
        results (withSha512 H (graft B D f)) fuel seed counterLen us = some xs ∧
        results (withSha512 H (graft B D f)) fuel seed' counterLen us' = some xs') =
      prob (fun f : D → Digest =>
        results (withSha512 H (graft B D f)) fuel seed counterLen us = some xs) *
      prob (fun f : D → Digest =>
        results (withSha512 H (graft B D f)) fuel seed' counterLen us' = some xs') := by
  let N := 256 ^ counterLen
  let pt : Fin N ⊕ Fin N → D := Sum.elim (fun i => ⟨inputs counterLen seed i, hD i i.isLt⟩)
    fun i => ⟨inputs counterLen seed' i, hD' i i.isLt⟩
  have hpt : Function.Injective pt := by
    rintro (i | i) (j | j) h
    · rw [Fin.ext (inputs_inj i.isLt j.isLt (congrArg Subtype.val h))]
    · exact absurd (C115_inputs counterLen i j i.isLt j.isLt seed seed' (congrArg Subtype.val h)).2 hne
    · exact absurd (C115_inputs counterLen i j i.isLt j.isLt seed' seed (congrArg Subtype.val h)).2 (Ne.symm hne)
    · rw [Fin.ext (inputs_inj i.isLt j.isLt (congrArg Subtype.val h))]
  let S (vs ys : List Int) (g : Fin N → Digest) : Prop :=
    ∃ rest, Draws vs ((List.ofFn fun i => List.ofFn (g i)).flatten) ys rest
  have e1 : ∀ f : D → Digest, results (withSha512 H (graft B D f)) fuel seed counterLen us = some xs ↔
      S us xs fun i => f (pt (.inl i)) := by
    intro f
    rw [results_iff H (graft B D f) hs hf, stream, blocksFrom_eq]
    have : (fun j : Fin (256 ^ counterLen) => List.ofFn (graft B D f (inputs counterLen seed (0 + j)))) =
        fun i : Fin N => List.ofFn (f (pt (.inl i))) := by
      funext j
      rw [zero_add, graft_mem B (hD j j.isLt)]
      rfl
    rw [this]
  have e2 : ∀ f : D → Digest, results (withSha512 H (graft B D f)) fuel seed' counterLen us' = some xs' ↔
      S us' xs' fun i => f (pt (.inr i)) := by
    intro f
    rw [results_iff H (graft B D f) hs' hf, stream, blocksFrom_eq]
    have : (fun j : Fin (256 ^ counterLen) => List.ofFn (graft B D f (inputs counterLen seed' (0 + j)))) =
        fun i : Fin N => List.ofFn (f (pt (.inr i))) := by
      funext j
      rw [zero_add, graft_mem B (hD' j j.isLt)]
      rfl
    rw [this]
  have h1 := prob_points (Y := Digest) (fun i => pt (.inl i)) (fun i j h => Sum.inl.inj (hpt h)) (S us xs)
  have h2 := prob_points (Y := Digest) (fun i => pt (.inr i)) (fun i j h => Sum.inr.inj (hpt h)) (S us' xs')
  have h3 := prob_points (Y := Digest) pt hpt fun g =>
    S us xs (fun i => g (.inl i)) ∧ S us' xs' fun i => g (.inr i)
  rw [prob_congr e1, prob_congr e2, h1, h2, prob_congr fun f => and_congr (e1 f) (e2 f)]
  have h4 := prob_equiv (Equiv.sumArrowEquivProdArrow (Fin N) (Fin N) Digest)
    fun t : (Fin N → Digest) × (Fin N → Digest) => S us xs t.1 ∧ S us' xs' t.2
  rw [prob_indep] at h4
  rw [← h4]
  refine Eq.trans ?_ (h3.trans ?_)
  · convert rfl
  · convert rfl <;> rfl

/-! ### A case -/

/-- Two seeds of 32 bytes, the default length of the counter and three limits. -/
def seed1 : Bytes := List.replicate 32 1
def seed2 : Bytes := List.replicate 32 2

/-- The inputs of both generators. -/
def domain : Finset Bytes :=
  (range (256 ^ 4)).image (inputs 4 seed1) ∪ (range (256 ^ 4)).image (inputs 4 seed2)

/-- The hypotheses hold for two seeds with the default counter.  The bounds are then those of
independent uniform numbers up to `3 / 2 ^ 128`. -/
theorem C136_reached : 32 ≤ seed1.length ∧ 32 ≤ seed2.length ∧ seed1 ≠ seed2 ∧
    (∀ i < 256 ^ 4, inputs 4 seed1 i ∈ domain) ∧ (∀ i < 256 ^ 4, inputs 4 seed2 i ∈ domain) ∧
    Below [6, 100, 2 ^ 256] [5, 0, 2 ^ 255] ∧ need 128 [6, 100, 2 ^ 256] ≤ 256 ^ 4 * 64 ∧
    product [6, 100, 2 ^ 256] = 600 * 2 ^ 256 := by
  refine ⟨by decide, by decide, by decide, fun i hi => ?_, fun i hi => ?_, ?_, ?_, ?_⟩
  · exact mem_union_left _ (mem_image_of_mem _ (mem_range.2 hi))
  · exact mem_union_right _ (mem_image_of_mem _ (mem_range.2 hi))
  · exact .cons (by norm_num) (.cons (by norm_num) (.cons (by norm_num) .nil))
  · decide +kernel
  · norm_num [product]

end PJC.Py.Prng
