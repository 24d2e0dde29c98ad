import Verif.Model.MontObject
import Verif.Props.BnObject
import Verif.Lemmas.Exp
/-
C143: `MontBigNum` objects are independent residues.  A program that makes, copies, moves, assigns,
multiplies, compares, shows and destroys Montgomery numbers sees what the same program sees on plain
residues modulo the moduli of the contexts.
-/
namespace PJC.Obj

/-! ### Specification: the same program on residues -/

/-- The variables: `none` if it does not exist; otherwise its context and its residue, which is not
there after it was moved away. -/
abbrev Residues := Nat → Option (Nat × Option Int)

/-- One statement on residues; `n` are the moduli of the contexts. -/
def onResidues (n : Nat → Int) : MontStmt → Residues → Res Seen × Residues
  | .make x c v, s =>
    match s x with
    | some _ => (.ub, s)
    | none => if 0 ≤ v ∧ v < n c then (.ok .nothing, set s x (some (c, some v))) else (.crash, s)
  | .reload x c y, s =>
    match s x, s y with
    | none, some (d, some r) =>
      if n c = n d then (.ok .nothing, set s x (some (c, some r))) else (.ub, s)
    | _, _ => (.ub, s)
  | .copy x y, s =>
    match s x, s y with
    | none, some q => (.ok .nothing, set s x (some q))
    | _, _ => (.ub, s)
  | .assign x y, s =>
    match s x, s y with
    | some _, some q => (.ok .nothing, set s x (some q))
    | _, _ => (.ub, s)
  | .moveNew x y, s =>
    match s x, s y with
    | none, some (c, q) => (.ok .nothing, set (set s y (some (c, none))) x (some (c, q)))
    | _, _ => (.ub, s)
  | .moveAssign x y, s =>
    match s x, s y with
    | some _, some (c, q) => (.ok .nothing, set (set s y (some (c, none))) x (some (c, q)))
    | _, _ => (.ub, s)
  | .mul x y z, s =>
    match s x, s y, s z with
    | none, some (c, p), some (d, q) =>
      if c = d then
        match p, q with
        | some a, some b => (.ok .nothing, set s x (some (c, some (a * b % n c))))
        | _, _ => (.ub, s)
      else (.crash, s)
    | _, _, _ => (.ub, s)
  | .mulIn x y, s =>
    match s x, s y with
    | some (c, p), some (d, q) =>
      if c = d then
        match p, q with
        | some a, some b => (.ok .nothing, set s x (some (c, some (a * b % n c))))
        | _, _ => (.ub, s)
      else (.crash, s)
    | _, _ => (.ub, s)
  | .value x, s =>
    match s x with
    | some (_, some a) => (.ok (.number a), s)
    | _ => (.ub, s)
  | .same x y, s =>
    match s x, s y with
    | some (c, p), some (d, q) =>
      if c = d then
        match p, q with
        | some a, some b => (.ok (.answer (a = b)), s)
        | _, _ => (.ub, s)
      else (.crash, s)
    | _, _ => (.ub, s)
  | .drop x, s =>
    match s x with
    | none => (.ub, s)
    | some _ => (.ok .nothing, set s x none)

/-- A program on residues. -/
def runResidues (n : Nat → Int) : List MontStmt → Residues → List (Res Seen) × Residues
  | [], s => ([], s)
  | c :: cs, s =>
    match onResidues n c s with
    | (.ok o, s) => let (rs, t) := runResidues n cs s; (.ok o :: rs, t)
    | (r, s) => ([r], s)

/-- The contexts were made for these moduli, with a radix that depends on the modulus only. -/
def Contexts (bits : Int → Nat) (n : Nat → Int) (k : Nat → MontCtx) : Prop :=
  ∀ c, Mont.newCtx (bits (n c)) (n c) = .ok (k c)

/-! ### Montgomery form -/

/-- The Montgomery form of a residue. -/
def form (k : MontCtx) (r : Int) : Int := r * k.radix % k.modulus

theorem form_create {k : MontCtx} {r : Int} (h0 : 0 ≤ r) (h1 : r < k.modulus) :
    Mont.create k r = .ok (form k r) := Mont.create_ok h0 h1

theorem form_back {k : MontCtx} (g : Mont.Good k) {r : Int} (h0 : 0 ≤ r) (h1 : r < k.modulus) :
    Mont.toBigNum k (form k r) = r := by
  have h : Mont.toBigNum k (form k r) = r % k.modulus := by
    apply Mont.eq_emod_of_cast g.pos (Mont.toBigNum_range g _)
    rw [Mont.toBigNum_cast, Mont.val_create g (form_create h0 h1)]
  rw [h, Int.emod_eq_of_lt h0 h1]

theorem form_inj {k : MontCtx} (g : Mont.Good k) {r t : Int} (h0 : 0 ≤ r) (h1 : r < k.modulus)
    (h2 : 0 ≤ t) (h3 : t < k.modulus) : form k r = form k t ↔ r = t := by
  constructor
  · intro h
    rw [← form_back g h0 h1, h, form_back g h2 h3]
  · rintro rfl; rfl

theorem form_mul {k : MontCtx} (g : Mont.Good k) (r t : Int) :
    Mont.mul k (form k r) (form k t) = form k (r * t % k.modulus) := by
  have hi : k.radix * k.rInv ≡ 1 [ZMOD k.modulus] := g.inv
  unfold Mont.mul form
  have e1 : r * k.radix % k.modulus ≡ r * k.radix [ZMOD k.modulus] := Int.mod_modEq _ _
  have e2 : t * k.radix % k.modulus ≡ t * k.radix [ZMOD k.modulus] := Int.mod_modEq _ _
  have e3 : r * t % k.modulus ≡ r * t [ZMOD k.modulus] := Int.mod_modEq _ _
  have h1 := ((e1.mul e2).mul_right k.rInv)
  have h2 : r * k.radix * (t * k.radix) * k.rInv ≡ r * t * k.radix [ZMOD k.modulus] := by
    have := hi.mul_left (r * t * k.radix)
    rw [mul_one] at this
    have e : r * k.radix * (t * k.radix) * k.rInv = r * t * k.radix * (k.radix * k.rInv) := by ring
    rw [e]; exact this
  exact (h1.trans h2).trans (e3.mul_right k.radix).symm

theorem form_bytes {k : MontCtx} (g : Mont.Good k) (r : Int) :
    Mont.createFromBytes (Mont.toBytes (form k r)) = form k r := by
  rw [Mont.createFromBytes, Mont.toBytes, BN.ofBytes_natToBytes]
  exact Int.natAbs_of_nonneg (Int.emod_nonneg _ g.pos.ne')

/-! ### The invariant -/

/-- An object and a residue. -/
def Agree (k : Nat → MontCtx) (cell : Nat → Option Int) :
    Option MontVar → Option (Nat × Option Int) → Prop
  | none, none => True
  | some ⟨c, none⟩, some (d, none) => c = d
  | some ⟨c, some a⟩, some (d, some r) =>
    c = d ∧ 0 ≤ r ∧ r < (k c).modulus ∧ cell a = some (form (k c) r)
  | _, _ => False

structure Rel (k : Nat → MontCtx) (s : MontState) (v : Residues) : Prop where
  fresh : ∀ a, s.mem.next ≤ a → s.mem.cell a = none
  var : ∀ x, Agree k s.mem.cell (s.vars x) (v x)
  alone : ∀ x y c d a, s.vars x = some ⟨c, some a⟩ → s.vars y = some ⟨d, some a⟩ → x = y
  owned : ∀ a, s.mem.cell a ≠ none → ∃ x c, s.vars x = some ⟨c, some a⟩

theorem Agree.congr {k : Nat → MontCtx} {f g : Nat → Option Int} {p : Option MontVar}
    {q : Option (Nat × Option Int)} (h : Agree k f p q)
    (hfg : ∀ c a, p = some ⟨c, some a⟩ → g a = f a) : Agree k g p q := by
  rcases p with _ | ⟨c, _ | a⟩ <;> rcases q with _ | ⟨d, _ | r⟩ <;> try exact h
  obtain ⟨h1, h2, h3, h4⟩ := h
  exact ⟨h1, h2, h3, by rw [hfg c a rfl, h4]⟩

variable {k : Nat → MontCtx} {s : MontState} {v : Residues}

theorem Rel.live (h : Rel k s v) {x c a : Nat} (hx : s.vars x = some ⟨c, some a⟩) :
    ∃ r, v x = some (c, some r) ∧ 0 ≤ r ∧ r < (k c).modulus ∧ s.mem.cell a = some (form (k c) r) := by
  have := h.var x
  rw [hx] at this
  rcases hv : v x with _ | ⟨d, _ | r⟩ <;> rw [hv] at this
  · exact this.elim
  · exact this.elim
  · obtain ⟨rfl, h2⟩ := this
    exact ⟨r, rfl, h2⟩

theorem Rel.gone (h : Rel k s v) {x c : Nat} (hx : s.vars x = some ⟨c, none⟩) :
    v x = some (c, none) := by
  have := h.var x
  rw [hx] at this
  rcases hv : v x with _ | ⟨d, _ | r⟩ <;> rw [hv] at this
  · exact this.elim
  · cases this; rfl
  · exact this.elim

theorem Rel.absent (h : Rel k s v) {x : Nat} (hx : s.vars x = none) : v x = none := by
  have := h.var x
  rw [hx] at this
  rcases hv : v x with _ | ⟨d, _ | r⟩ <;> rw [hv] at this <;> exact this.elim

theorem Rel.below (h : Rel k s v) {x c a : Nat} (hx : s.vars x = some ⟨c, some a⟩) :
    a ≠ s.mem.next := by
  rintro rfl
  obtain ⟨r, -, -, -, h4⟩ := h.live hx
  rw [h.fresh _ le_rfl] at h4
  cases h4

/-- A new variable with a new number. -/
theorem Rel.install (h : Rel k s v) {x : Nat} (hx : s.vars x = none) (c : Nat) {r : Int} (h0 : 0 ≤ r)
    (h1 : r < (k c).modulus) (t : Nat) :
    Rel k ⟨⟨set s.mem.cell s.mem.next (some (form (k c) r)), s.mem.next + 1, t⟩,
      set s.vars x (some ⟨c, some s.mem.next⟩)⟩ (set v x (some (c, some r))) := by
  refine ⟨fun a ha => ?_, fun y => ?_, fun y z d e a hy hz => ?_, fun a ha => ?_⟩
  · simp only at ha ⊢
    rw [set_other _ _ (by omega)]
    exact h.fresh a (by omega)
  · by_cases hyx : y = x
    · subst hyx
      simp only [set_same]
      exact ⟨rfl, h0, h1, set_same _ _ _⟩
    · simp only [set_other _ _ hyx]
      exact (h.var y).congr fun d a hd => set_other _ _ (h.below hd)
  · simp only at hy hz
    by_cases hyx : y = x <;> by_cases hzx : z = x
    · rw [hyx, hzx]
    · subst hyx
      rw [set_same] at hy; rw [set_other _ _ hzx] at hz
      cases hy
      exact absurd rfl (h.below hz)
    · subst hzx
      rw [set_same] at hz; rw [set_other _ _ hyx] at hy
      cases hz
      exact absurd rfl (h.below hy)
    · rw [set_other _ _ hyx] at hy; rw [set_other _ _ hzx] at hz
      exact h.alone _ _ _ _ _ hy hz
  · simp only at ha ⊢
    by_cases han : a = s.mem.next
    · exact ⟨x, c, by rw [set_same, han]⟩
    · rw [set_other _ _ han] at ha
      obtain ⟨y, d, hy⟩ := h.owned a ha
      refine ⟨y, d, ?_⟩
      rw [set_other _ _ (by rintro rfl; rw [hx] at hy; cases hy)]
      exact hy

/-- A new variable without a number. -/
theorem Rel.installNone (h : Rel k s v) {x : Nat} (hx : s.vars x = none) (c : Nat) :
    Rel k ⟨s.mem, set s.vars x (some ⟨c, none⟩)⟩ (set v x (some (c, none))) := by
  refine ⟨h.fresh, fun y => ?_, fun y z d e a hy hz => ?_, fun a ha => ?_⟩
  · by_cases hyx : y = x
    · subst hyx
      simp only [set_same]
      exact rfl
    · simp only [set_other _ _ hyx]
      exact h.var y
  · simp only at hy hz
    have f : ∀ {w c' : Nat}, set s.vars x (some ⟨c, none⟩) w = some ⟨c', some a⟩ →
        s.vars w = some ⟨c', some a⟩ := by
      intro w c' hw
      by_cases hwx : w = x
      · subst hwx; rw [set_same] at hw; cases hw
      · rwa [set_other _ _ hwx] at hw
    exact h.alone _ _ _ _ _ (f hy) (f hz)
  · obtain ⟨y, d, hy⟩ := h.owned a ha
    refine ⟨y, d, ?_⟩
    simp only
    rw [set_other _ _ (by rintro rfl; rw [hx] at hy; cases hy)]
    exact hy

/-- The end of a variable. -/
theorem Rel.destroy (h : Rel k s v) {x c : Nat} {p : Option Nat} (hx : s.vars x = some ⟨c, p⟩) :
    Rel k ⟨⟨freed s.mem.cell p, s.mem.next, s.mem.tick⟩, set s.vars x none⟩ (set v x none) := by
  have keep : ∀ y d a, y ≠ x → s.vars y = some ⟨d, some a⟩ → freed s.mem.cell p a = s.mem.cell a := by
    intro y d a hyx hy
    cases p with
    | none => rfl
    | some b =>
      exact set_other _ _ (by rintro rfl; exact hyx (h.alone _ _ _ _ _ hy hx))
  refine ⟨fun a ha => ?_, fun y => ?_, fun y z d e a hy hz => ?_, fun a ha => ?_⟩
  · simp only at ha ⊢
    cases p with
    | none => exact h.fresh a ha
    | some b =>
      simp only [freed, set]
      split
      · rfl
      · exact h.fresh a ha
  · by_cases hyx : y = x
    · subst hyx
      simp only [set_same]
      trivial
    · simp only [set_other _ _ hyx]
      exact (h.var y).congr fun d a hd => keep y d a hyx hd
  · simp only at hy hz
    have f : ∀ {w c' : Nat}, set s.vars x none w = some ⟨c', some a⟩ →
        s.vars w = some ⟨c', some a⟩ := by
      intro w c' hw
      by_cases hwx : w = x
      · subst hwx; rw [set_same] at hw; cases hw
      · rwa [set_other _ _ hwx] at hw
    exact h.alone _ _ _ _ _ (f hy) (f hz)
  · simp only at ha ⊢
    have hl : s.mem.cell a ≠ none ∧ p ≠ some a := by
      cases p with
      | none => exact ⟨ha, by simp⟩
      | some b =>
        simp only [freed, set] at ha
        split at ha
        · exact absurd rfl ha
        · next hne => exact ⟨ha, fun e => hne (by cases e; rfl)⟩
    obtain ⟨y, d, hy⟩ := h.owned a hl.1
    refine ⟨y, d, ?_⟩
    rw [set_other _ _ (by rintro rfl; rw [hx] at hy; cases hy; exact hl.2 rfl)]
    exact hy

/-- A number is changed in place. -/
theorem Rel.write (h : Rel k s v) {x c a : Nat} (hx : s.vars x = some ⟨c, some a⟩) {r : Int}
    (h0 : 0 ≤ r) (h1 : r < (k c).modulus) :
    Rel k ⟨⟨set s.mem.cell a (some (form (k c) r)), s.mem.next, s.mem.tick⟩, s.vars⟩
      (set v x (some (c, some r))) := by
  obtain ⟨r', -, -, -, hl⟩ := h.live hx
  refine ⟨fun b hb => ?_, fun y => ?_, h.alone, fun b hb => ?_⟩
  · simp only at hb ⊢
    have := h.fresh b hb
    rw [set_other _ _ (by rintro rfl; rw [this] at hl; cases hl)]
    exact this
  · by_cases hyx : y = x
    · subst hyx
      simp only [set_same, hx]
      exact ⟨rfl, h0, h1, set_same _ _ _⟩
    · simp only [set_other _ _ hyx]
      exact (h.var y).congr fun d b hd => set_other _ _ (by
        rintro rfl; exact hyx (h.alone _ _ _ _ _ hd hx))
  · simp only at hb ⊢
    apply h.owned
    by_cases hba : b = a
    · subst hba; rw [hl]; simp
    · rwa [set_other _ _ hba] at hb

/-- A number goes from one variable to a new one. -/
theorem Rel.transfer (h : Rel k s v) {x y c : Nat} {p : Option Nat} {q : Option Int}
    (hx : s.vars x = none) (hy : s.vars y = some ⟨c, p⟩) (hv : v y = some (c, q)) :
    Rel k ⟨s.mem, set (set s.vars y (some ⟨c, none⟩)) x (some ⟨c, p⟩)⟩
      (set (set v y (some (c, none))) x (some (c, q))) := by
  have hxy : y ≠ x := by rintro rfl; rw [hx] at hy; cases hy
  -- who has a number afterwards
  have f : ∀ {w c' a : Nat}, set (set s.vars y (some ⟨c, none⟩)) x (some ⟨c, p⟩) w = some ⟨c', some a⟩ →
      (w = x ∧ p = some a) ∨ (w ≠ y ∧ w ≠ x ∧ s.vars w = some ⟨c', some a⟩) := by
    intro w c' a hw
    by_cases hwx : w = x
    · subst hwx; rw [set_same] at hw; cases hw; exact Or.inl ⟨rfl, rfl⟩
    · rw [set_other _ _ hwx] at hw
      by_cases hwy : w = y
      · subst hwy; rw [set_same] at hw; cases hw
      · rw [set_other _ _ hwy] at hw; exact Or.inr ⟨hwy, hwx, hw⟩
  refine ⟨h.fresh, fun z => ?_, fun z w d e a hz hw => ?_, fun a ha => ?_⟩
  · by_cases hzx : z = x
    · subst hzx
      simp only [set_same]
      have := h.var y
      rwa [hy, hv] at this
    · by_cases hzy : z = y
      · subst hzy
        simp only [set_other _ _ hzx, set_same]
        exact rfl
      · simp only [set_other _ _ hzx, set_other _ _ hzy]
        exact h.var z
  · simp only at hz hw
    rcases f hz with ⟨hz1, hz2⟩ | ⟨hz1, -, hz2⟩ <;> rcases f hw with ⟨hw1, hw2⟩ | ⟨hw1, -, hw2⟩
    · rw [hz1, hw1]
    · subst hz2; exact absurd (h.alone _ _ _ _ _ hw2 hy) hw1
    · subst hw2; exact absurd (h.alone _ _ _ _ _ hz2 hy) hz1
    · exact h.alone _ _ _ _ _ hz2 hw2
  · obtain ⟨z, d, hz⟩ := h.owned a ha
    by_cases hzy : z = y
    · subst hzy
      rw [hy] at hz; cases hz
      exact ⟨x, c, set_same _ _ _⟩
    · refine ⟨z, d, ?_⟩
      simp only
      rw [set_other _ _ (by rintro rfl; rw [hx] at hz; cases hz), set_other _ _ hzy]
      exact hz

/-! ### The statements -/

theorem Contexts.modulus {bits : Int → Nat} {n : Nat → Int} (hk : Contexts bits n k) (c : Nat) :
    (k c).modulus = n c := by
  have := hk c
  unfold Mont.newCtx at this
  split at this
  · cases this
  · rw [← Res.ok.inj this]

theorem Contexts.good {bits : Int → Nat} {n : Nat → Int} (hk : Contexts bits n k) (c : Nat) :
    Mont.Good (k c) := by
  have h := hk c
  have h0 : 0 < n c ∧ n c % 2 = 1 := by
    unfold Mont.newCtx at h
    split at h
    · cases h
    · omega
  obtain ⟨c', h1, -, h3⟩ := Mont.newCtx_good (k := bits (n c)) h0.1 h0.2
  rw [h] at h1
  cases h1
  exact h3

theorem Contexts.same {bits : Int → Nat} {n : Nat → Int} (hk : Contexts bits n k) {c d : Nat}
    (h : n c = n d) : k c = k d := by
  have h1 := hk c
  rw [h, hk d] at h1
  exact (Res.ok.inj h1).symm

theorem alloc_enough {ok : Nat → Bool} (he : Enough ok) (r : Int) (m : Mem) : alloc ok r m =
    (.ok (some m.next), ⟨set m.cell m.next (some r), m.next + 1, m.tick + 1⟩) := by
  simp [alloc, he m.tick]

theorem free_freed {c : Nat → Option Int} {p : Option Nat} {j t : Nat}
    (hp : ∀ a, p = some a → c a ≠ none) : free p ⟨c, j, t⟩ = (.ok (), ⟨freed c p, j, t⟩) := by
  cases p with
  | none => rfl
  | some a =>
    obtain ⟨r, hr⟩ := Option.ne_none_iff_exists'.1 (hp a rfl)
    simp [free, hr, freed]

/-- A statement does to the objects what it does to the residues. -/
def Follows (k : Nat → MontCtx) (out : Res Seen × MontState) (w : Res Seen × Residues) : Prop :=
  out.1 = w.1 ∧ ∀ o, out.1 = .ok o → Rel k out.2 w.2

theorem step_follows {ok : Nat → Bool} (he : Enough ok) {bits : Int → Nat} {n : Nat → Int}
    (hk : Contexts bits n k) (h : Rel k s v) (c : MontStmt) :
    Follows k (montStep ok k c s) (onResidues n c v) := by
  have bad : ∀ {s' : MontState} {v' : Residues}, Follows k (.ub, s') (.ub, v') :=
    ⟨rfl, fun _ h => nomatch h⟩
  have dead : ∀ {s' : MontState} {v' : Residues}, Follows k (.crash, s') (.crash, v') :=
    ⟨rfl, fun _ h => nomatch h⟩
  -- looking at a variable and its residue together
  have look : ∀ x, (s.vars x = none ∧ v x = none) ∨ (∃ c, s.vars x = some ⟨c, none⟩ ∧ v x = some (c, none)) ∨
      ∃ c a r, s.vars x = some ⟨c, some a⟩ ∧ v x = some (c, some r) ∧ 0 ≤ r ∧ r < (k c).modulus ∧
        s.mem.cell a = some (form (k c) r) := by
    intro x
    rcases hx : s.vars x with _ | ⟨c, _ | a⟩
    · exact Or.inl ⟨rfl, h.absent hx⟩
    · exact Or.inr (Or.inl ⟨c, rfl, h.gone hx⟩)
    · obtain ⟨r, h1⟩ := h.live hx
      exact Or.inr (Or.inr ⟨c, a, r, rfl, h1⟩)
  have res : ∀ c a, 0 ≤ a % n c ∧ a % n c < (k c).modulus := by
    intro c a
    have := (hk.good c).pos
    rw [hk.modulus] at this ⊢
    exact ⟨Int.emod_nonneg _ this.ne', Int.emod_lt_of_pos _ this⟩
  cases c with
  | make x c r =>
    rcases look x with ⟨hx, hv⟩ | ⟨d, hx, hv⟩ | ⟨d, a, t, hx, hv, -⟩ <;>
      simp only [montStep, montDeclare, onResidues, hx, hv]
    · by_cases h1 : 0 ≤ r ∧ r < n c
      · have h2 : r < (k c).modulus := by rw [hk.modulus]; exact h1.2
        simp only [montMake, not_le.2 h2, if_false, bind_def, alloc_enough he, read, set_same,
          form_create h1.1 h2, Obj.write, pure_def, set_set, h1, and_self, if_true]
        exact ⟨rfl, fun _ _ => h.install hx c h1.1 h2 _⟩
      · have h2 : montMake ok (k c) r s.mem = (.crash, (montMake ok (k c) r s.mem).2) := by
          unfold montMake
          by_cases h3 : (k c).modulus ≤ r
          · simp only [h3, if_true, stop]
          · have h4 : Mont.create (k c) r = .crash := by
              unfold Mont.create
              rw [hk.modulus, if_neg h1]
            simp only [h3, if_false, bind_def, alloc_enough he, read, set_same, h4, stop]
        rw [h2, if_neg h1]
        exact dead
    · exact bad
    · exact bad
  | reload x c y =>
    rcases look y with ⟨hy, gy⟩ | ⟨d, hy, gy⟩ | ⟨d, a, t, hy, gy, h0, h1, h2⟩
    · rcases look x with ⟨hx, hv⟩ | ⟨d, hx, hv⟩ | ⟨d, a, t, hx, hv, -⟩ <;>
        simp only [montStep, onResidues, hy, gy, hv] <;> exact bad
    · rcases look x with ⟨hx, hv⟩ | ⟨d, hx, hv⟩ | ⟨d, a, t, hx, hv, -⟩ <;>
        simp only [montStep, onResidues, montDeclare, montReload, bind_def, read, hy, gy, hx, hv] <;>
        split <;> exact bad
    · rcases look x with ⟨hx, hv⟩ | ⟨d, hx, hv⟩ | ⟨d, a, t, hx, hv, -⟩
      · simp only [montStep, onResidues, montDeclare, hy, gy, hx, hv, hk.modulus]
        by_cases hn : n c = n d
        · have e := hk.same hn
          simp only [hn, if_true, montReload, bind_def, read, h2, alloc_enough he, Obj.write, set_same,
            set_set, form_bytes (hk.good d), pure_def]
          rw [← e] at h1 ⊢
          exact ⟨rfl, fun _ _ => h.install hx c h0 h1 _⟩
        · simp only [hn, if_false]
          exact bad
      · simp only [montStep, onResidues, montDeclare, hy, gy, hx, hv]
        split <;> exact bad
      · simp only [montStep, onResidues, montDeclare, hy, gy, hx, hv]
        split <;> exact bad
  | copy x y =>
    rcases look y with ⟨hy, gy⟩ | ⟨d, hy, gy⟩ | ⟨d, a, t, hy, gy, h0, h1, h2⟩ <;>
      rcases look x with ⟨hx, hv⟩ | ⟨d', hx, hv⟩ | ⟨d', a', t', hx, hv, -⟩ <;>
      simp only [montStep, onResidues, montDeclare, hy, gy, hx, hv] <;> try exact bad
    · exact ⟨rfl, fun _ _ => h.installNone hx d⟩
    · simp only [bnDup, bind_def, read, h2, alloc_enough he]
      exact ⟨rfl, fun _ _ => h.install hx d h0 h1 _⟩
  | assign x y =>
    have key : ∀ (c : Nat) (p : Option Nat), s.vars x = some ⟨c, p⟩ →
        (∀ a, p = some a → s.mem.cell a ≠ none) →
        (v x).isSome → Follows k (montStep ok k (.assign x y) s) (onResidues n (.assign x y) v) := by
      intro c p hx hp hsome
      obtain ⟨q0, hv⟩ := Option.isSome_iff_exists.1 hsome
      have hd := h.destroy hx
      rcases look y with ⟨hy, gy⟩ | ⟨d, hy, gy⟩ | ⟨d, a, t, hy, gy, h0, h1, h2⟩
      · simp only [montStep, onResidues, hy, gy, hx, hv]
        exact bad
      · simp only [montStep, onResidues, hy, gy, hx, hv, bnDup, bind_def, pure_def]
        rw [show s.mem = ⟨s.mem.cell, s.mem.next, s.mem.tick⟩ from rfl, free_freed hp]
        refine ⟨rfl, fun _ _ => ?_⟩
        have := hd.installNone (x := x) (set_same _ _ _) d
        simpa only [set_set] using this
      · have hp' : ∀ b, p = some b → set s.mem.cell s.mem.next (some (form (k d) t)) b ≠ none := by
          intro b hb
          subst hb
          rw [set_other _ _ (h.below hx)]
          exact hp b rfl
        simp only [montStep, onResidues, hy, gy, hx, hv, bnDup, bind_def, read, h2, alloc_enough he,
          free_freed hp', pure_def]
        refine ⟨rfl, fun _ _ => ?_⟩
        have := hd.install (x := x) (set_same _ _ _) d h0 h1 (s.mem.tick + 1)
        simp only [set_set] at this
        have e : freed (set s.mem.cell s.mem.next (some (form (k d) t))) p =
            set (freed s.mem.cell p) s.mem.next (some (form (k d) t)) := by
          cases p with
          | none => rfl
          | some b => exact set_comm _ _ _ (h.below hx).symm
        rw [e]
        exact this
    rcases look x with ⟨hx, hv⟩ | ⟨c, hx, hv⟩ | ⟨c, a, t, hx, hv, -, -, h2⟩
    · simp only [montStep, onResidues, hx, hv]
      exact bad
    · exact key c none hx (fun _ e => nomatch e) (by simp [hv])
    · exact key c (some a) hx (fun b e => by cases e; rw [h2]; simp) (by simp [hv])
  | moveNew x y =>
    rcases look x with ⟨hx, hv⟩ | ⟨c, hx, hv⟩ | ⟨c, a, t, hx, hv, -⟩
    · rcases look y with ⟨hy, gy⟩ | ⟨d, hy, gy⟩ | ⟨d, a, t, hy, gy, -⟩ <;>
        simp only [montStep, onResidues, hy, gy, hx, hv]
      · exact bad
      · exact ⟨rfl, fun _ _ => h.transfer hx hy gy⟩
      · exact ⟨rfl, fun _ _ => h.transfer hx hy gy⟩
    · simp only [montStep, onResidues, hx, hv]
      exact bad
    · simp only [montStep, onResidues, hx, hv]
      exact bad
  | moveAssign x y =>
    have key : ∀ (c : Nat) (p : Option Nat) (q0 : Nat × Option Int) (d : Nat) (q : Option Nat)
        (r : Option Int), s.vars x = some ⟨c, p⟩ → v x = some q0 →
        (∀ a, p = some a → s.mem.cell a ≠ none) →
        s.vars y = some ⟨d, q⟩ → v y = some (d, r) →
        Follows k (montStep ok k (.moveAssign x y) s) (onResidues n (.moveAssign x y) v) := by
      intro c p q0 d q r hx hv hp hy gy
      simp only [montStep, onResidues, hx, hv, hy, gy]
      by_cases hxy : x = y
      · subst hxy
        simp only [if_true, free, set_set]
        rw [set_self _ _ hy, set_self _ _ gy]
        exact ⟨rfl, fun _ _ => h⟩
      · rw [if_neg hxy, show s.mem = ⟨s.mem.cell, s.mem.next, s.mem.tick⟩ from rfl, free_freed hp]
        refine ⟨rfl, fun _ _ => ?_⟩
        have hd := (h.destroy hx).transfer (x := x) (y := y) (c := d) (p := q) (q := r) (set_same _ _ _)
          (by simp only; rw [set_other _ _ (Ne.symm hxy)]; exact hy)
          (by rw [set_other _ _ (Ne.symm hxy)]; exact gy)
        simp only at hd
        rw [set_comm _ _ _ hxy, set_set, set_comm (a := x) (b := y) _ _ _ hxy, set_set] at hd
        exact hd
    rcases look y with ⟨hy, gy⟩ | ⟨d, hy, gy⟩ | ⟨d, b, u, hy, gy, -⟩ <;>
      rcases look x with ⟨hx, hv⟩ | ⟨c, hx, hv⟩ | ⟨c, a, t, hx, hv, -, -, h2⟩ <;>
      first
        | (simp only [montStep, onResidues, hx, hv, hy, gy]; exact bad)
        | exact key _ none _ _ _ _ hx hv (fun _ e => by cases e) hy gy
        | exact key _ _ _ _ _ _ hx hv (fun b e => by cases e; rw [h2]; simp) hy gy
  | mul x y z =>
    rcases look x with ⟨hx, hv⟩ | ⟨c, hx, hv⟩ | ⟨c, a, t, hx, hv, -⟩
    · rcases look y with ⟨hy, gy⟩ | ⟨d, hy, gy⟩ | ⟨d, b, u, hy, gy, h0, h1, h2⟩ <;>
        rcases look z with ⟨hz, gz⟩ | ⟨e, hz, gz⟩ | ⟨e, b', w, hz, gz, h3, h4, h5⟩ <;>
        simp only [montStep, onResidues, montDeclare, hx, hv, hy, gy, hz, gz] <;> try exact bad
      · by_cases hde : d = e
        · subst hde
          simp only [montMul, bnDup, bind_def, pure_def, beq_self_eq_true, if_true, montMulIn, read]
          exact bad
        · simp only [montMul, bnDup, bind_def, pure_def, beq_iff_eq, hde, if_false, stop]
          exact dead
      · by_cases hde : d = e
        · subst hde
          simp only [montMul, bnDup, bind_def, pure_def, beq_self_eq_true, if_true, montMulIn, read]
          exact bad
        · simp only [montMul, bnDup, bind_def, pure_def, beq_iff_eq, hde, if_false, stop]
          exact dead
      · by_cases hde : d = e
        · subst hde
          simp only [montMul, bnDup, bind_def, beq_self_eq_true, if_true, montMulIn, read, h2,
            alloc_enough he, set_same]
          exact bad
        · simp only [montMul, bnDup, bind_def, beq_iff_eq, hde, if_false, stop, read, h2,
            alloc_enough he]
          exact dead
      · by_cases hde : d = e
        · subst hde
          simp only [montMul, bnDup, bind_def, pure_def, beq_self_eq_true, if_true, montMulIn, read, h2,
            alloc_enough he, set_same, set_other _ _ (h.below hz), h5, Obj.write, set_set,
            form_mul (hk.good d), hk.modulus]
          exact ⟨rfl, fun _ _ => h.install hx d (res d _).1 (res d _).2 _⟩
        · simp only [montMul, bnDup, bind_def, beq_iff_eq, hde, if_false, stop, read, h2,
            alloc_enough he]
          exact dead
    · rcases look y with ⟨hy, gy⟩ | ⟨d, hy, gy⟩ | ⟨d, b, u, hy, gy, h0, h1, h2⟩ <;>
        rcases look z with ⟨hz, gz⟩ | ⟨e, hz, gz⟩ | ⟨e, b', w, hz, gz, h3, h4, h5⟩ <;>
        simp only [montStep, onResidues, montDeclare, hx, hv, hy, gy, hz, gz] <;> exact bad
    · rcases look y with ⟨hy, gy⟩ | ⟨d, hy, gy⟩ | ⟨d, b, u, hy, gy, h0, h1, h2⟩ <;>
        rcases look z with ⟨hz, gz⟩ | ⟨e, hz, gz⟩ | ⟨e, b', w, hz, gz, h3, h4, h5⟩ <;>
        simp only [montStep, onResidues, montDeclare, hx, hv, hy, gy, hz, gz] <;> exact bad
  | mulIn x y =>
    rcases look x with ⟨hx, hv⟩ | ⟨c, hx, hv⟩ | ⟨c, a, t, hx, hv, h0, h1, h2⟩ <;>
      rcases look y with ⟨hy, gy⟩ | ⟨d, hy, gy⟩ | ⟨d, b, u, hy, gy, h3, h4, h5⟩ <;>
      simp only [montStep, onResidues, hx, hv, hy, gy] <;> try exact bad
    all_goals by_cases hcd : c = d
    all_goals simp only [hcd, if_true, if_false]
    all_goals try exact dead
    all_goals subst hcd
    · simp only [montSee, montMulIn, bind_def, read]; exact bad
    · simp only [montSee, montMulIn, bind_def, read]; exact bad
    · simp only [montSee, montMulIn, bind_def, read, h2]; exact bad
    · simp only [montSee, montMulIn, bind_def, read, h2, h5, Obj.write, form_mul (hk.good c), hk.modulus]
      exact ⟨rfl, fun _ _ => h.write hx (res c _).1 (res c _).2⟩
  | value x =>
    rcases look x with ⟨hx, hv⟩ | ⟨c, hx, hv⟩ | ⟨c, a, t, hx, hv, h0, h1, h2⟩ <;>
      simp only [montStep, onResidues, hx, hv]
    · exact bad
    · simp only [montSee, montValue, bind_def, alloc_enough he, read]
      exact bad
    · simp only [montSee, montValue, bind_def, alloc_enough he, read, set_other _ _ (h.below hx), h2,
        Obj.write, set_same, set_set, free, pure_def, form_back (hk.good c) h0 h1]
      refine ⟨rfl, fun _ _ => ?_⟩
      rw [set_self _ _ (h.fresh _ le_rfl)]
      exact ⟨fun b hb => h.fresh b (by simp only at hb; omega), h.var, h.alone, h.owned⟩
  | same x y =>
    rcases look x with ⟨hx, hv⟩ | ⟨c, hx, hv⟩ | ⟨c, a, t, hx, hv, h0, h1, h2⟩ <;>
      rcases look y with ⟨hy, gy⟩ | ⟨d, hy, gy⟩ | ⟨d, b, u, hy, gy, h3, h4, h5⟩ <;>
      simp only [montStep, onResidues, hx, hv, hy, gy] <;> try exact bad
    all_goals by_cases hcd : c = d
    all_goals simp only [hcd, if_true, if_false]
    all_goals try exact dead
    all_goals subst hcd
    · simp only [montSee, montSame, bind_def, read]; exact bad
    · simp only [montSee, montSame, bind_def, read]; exact bad
    · simp only [montSee, montSame, bind_def, read, h2]; exact bad
    · simp only [montSee, montSame, bind_def, read, h2, h5, pure_def, Mont.eq,
        form_inj (hk.good c) h0 h1 h3 h4]
      exact ⟨rfl, fun _ _ => h⟩
  | drop x =>
    rcases look x with ⟨hx, hv⟩ | ⟨c, hx, hv⟩ | ⟨c, a, t, hx, hv, h0, h1, h2⟩ <;>
      simp only [montStep, onResidues, hx, hv]
    · exact bad
    · exact ⟨rfl, fun _ _ => h.destroy hx⟩
    · rw [show s.mem = ⟨s.mem.cell, s.mem.next, s.mem.tick⟩ from rfl,
        free_freed (p := some a) (fun b e => by cases e; rw [h2]; simp)]
      exact ⟨rfl, fun _ _ => h.destroy hx⟩

/-! ### Programs -/

theorem montStart_rel (k : Nat → MontCtx) : Rel k montStart fun _ => none :=
  ⟨fun _ _ => rfl, fun _ => trivial, fun _ _ _ _ _ h => (nomatch h), fun _ h => absurd rfl h⟩

theorem run_follows {ok : Nat → Bool} (he : Enough ok) {bits : Int → Nat} {n : Nat → Int}
    (hk : Contexts bits n k) : ∀ (cs : List MontStmt) (s : MontState) (v : Residues), Rel k s v →
    (montRun ok k cs s).1 = (runResidues n cs v).1 ∧
    ((∀ r ∈ (montRun ok k cs s).1, ∃ o, r = .ok o) →
      Rel k (montRun ok k cs s).2 (runResidues n cs v).2)
  | [], s, v, h => ⟨rfl, fun _ => h⟩
  | c :: cs, s, v, h => by
    obtain ⟨h1, h2⟩ := step_follows he hk h c
    simp only [montRun, runResidues]
    generalize montStep ok k c s = out at h1 h2
    generalize onResidues n c v = w at h1 h2
    obtain ⟨r, s'⟩ := out
    obtain ⟨r', v'⟩ := w
    cases h1
    cases r with
    | ok o =>
      obtain ⟨g1, g2⟩ := run_follows he hk cs s' v' (h2 o rfl)
      exact ⟨by simp only [g1], fun hr => g2 fun r hm => hr r (List.mem_cons_of_mem _ hm)⟩
    | err e => exact ⟨rfl, fun hr => by obtain ⟨o, ho⟩ := hr _ (List.mem_singleton.2 rfl); cases ho⟩
    | crash => exact ⟨rfl, fun hr => by obtain ⟨o, ho⟩ := hr _ (List.mem_singleton.2 rfl); cases ho⟩
    | ub => exact ⟨rfl, fun hr => by obtain ⟨o, ho⟩ := hr _ (List.mem_singleton.2 rfl); cases ho⟩

/-- Montgomery numbers behave as residues.  With enough memory, every statement of every program ends
and shows what it does on plain residues: in particular `x *= x` squares, an assignment of a variable
to itself changes nothing, copies do not change with the original, numbers of two contexts cannot be
multiplied or compared, and a statement is undefined only if it uses a variable that does not exist or
whose number was moved away.  Missing: programs that run out of memory. -/
theorem C143_residues_partial (ok : Nat → Bool) (he : ∀ t, ok t = true) (bits : Int → Nat) (n : Nat → Int)
    (k : Nat → MontCtx) (hk : Contexts bits n k) (cs : List MontStmt) :
    (montRun ok k cs montStart).1 = (runResidues n cs fun _ => none).1 :=
  (run_follows he hk cs _ _ (montStart_rel k)).1

/-- With enough memory, no two objects have the same number, an object's number is never one that was
freed, and when no variable exists any more, no number exists. -/
theorem C143_owned_partial (ok : Nat → Bool) (he : ∀ t, ok t = true) (bits : Int → Nat) (n : Nat → Int)
    (k : Nat → MontCtx) (hk : Contexts bits n k) (cs : List MontStmt)
    (hg : ∀ r ∈ (montRun ok k cs montStart).1, ∃ o, r = .ok o) :
    let s := (montRun ok k cs montStart).2
    (∀ x y c d a, s.vars x = some ⟨c, some a⟩ → s.vars y = some ⟨d, some a⟩ → x = y) ∧
    (∀ x c a, s.vars x = some ⟨c, some a⟩ → s.mem.cell a ≠ none) ∧
    ((∀ x, s.vars x = none) → ∀ a, s.mem.cell a = none) := by
  have h := (run_follows he hk cs _ _ (montStart_rel k)).2 hg
  refine ⟨h.alone, fun x c a hx => ?_, fun hn a => ?_⟩
  · obtain ⟨r, -, -, -, hr⟩ := h.live hx
    rw [hr]; simp
  · by_contra ha
    obtain ⟨x, c, hx⟩ := h.owned a ha
    rw [hn x] at hx
    cases hx

/-! ### What does not hold -/

/-- Contexts 0 and 1 for 91, all others for 77. -/
def toyModuli (c : Nat) : Int := if c ≤ 1 then 91 else 77

def toyContexts (c : Nat) : MontCtx :=
  ⟨toyModuli c, 2 ^ 64, BN.inv (2 ^ 64) (toyModuli c)⟩

theorem toyContexts_ok : Contexts (fun _ => 64) toyModuli toyContexts := by
  intro c
  unfold toyContexts toyModuli Mont.newCtx
  split <;> simp

/-- No memory for the second allocation. -/
def notSecond (t : Nat) : Bool := t != 1

/-- `x = 50; y(x); y * y`: if there is no memory for the copy, the program goes on, the copy has no
number and the statement after it is undefined. -/
theorem C143_fails :
    (montRun notSecond toyContexts [.make 0 0 50, .copy 1 0, .mul 2 1 1] montStart).1 =
      [.ok .nothing, .ok .nothing, .ub] ∧
    (runResidues toyModuli [.make 0 0 50, .copy 1 0, .mul 2 1 1] fun _ => none).1 =
      [.ok .nothing, .ok .nothing, .ok .nothing] := by
  constructor <;> decide +kernel

/-- The same for a number read from bytes, and the memory that the library then finds for itself is
never freed: both variables are gone, but a number is left. -/
theorem C143_reload_fails :
    let s := (montRun notSecond toyContexts [.make 0 0 50, .reload 1 1 0, .drop 0, .drop 1] montStart)
    s.1 = [.ok .nothing, .ok .nothing, .ok .nothing, .ok .nothing] ∧
    s.2.vars 0 = none ∧ s.2.vars 1 = none ∧ s.2.mem.cell 1 ≠ none := by
  refine ⟨by decide +kernel, by decide +kernel, by decide +kernel, by decide +kernel⟩

/-! ### The hypotheses are met -/

/-- A program with every kind of statement. -/
def montSample : List MontStmt :=
  [.make 0 0 50, .make 1 0 77, .mul 2 0 1, .value 2, .copy 3 0, .mulIn 0 0, .value 0, .value 3,
   .assign 0 0, .value 0, .same 0 3, .moveNew 4 3, .value 4, .moveAssign 3 4, .moveAssign 3 3, .value 3,
   .reload 5 1 0, .value 5, .mulIn 5 5, .value 5, .assign 4 5, .same 4 5, .mulIn 4 4, .value 5,
   .drop 0, .drop 1, .drop 2, .drop 3, .drop 4, .drop 5]

theorem C143_sample : (montRun (fun _ => true) toyContexts montSample montStart).1 =
    [.ok .nothing, .ok .nothing, .ok .nothing, .ok (.number 28), .ok .nothing, .ok .nothing,
     .ok (.number 43), .ok (.number 50), .ok .nothing, .ok (.number 43), .ok (.answer false),
     .ok .nothing, .ok (.number 50), .ok .nothing, .ok .nothing, .ok (.number 50),
     .ok .nothing, .ok (.number 43), .ok .nothing, .ok (.number 29), .ok .nothing, .ok (.answer true),
     .ok .nothing, .ok (.number 29),
     .ok .nothing, .ok .nothing, .ok .nothing, .ok .nothing, .ok .nothing, .ok .nothing] := by
  rw [C143_residues_partial _ (fun _ => rfl) _ _ _ toyContexts_ok]
  decide +kernel

/-- Numbers of two contexts: the process ends. -/
theorem C143_contexts : (montRun (fun _ => true) toyContexts [.make 0 0 50, .make 1 1 50, .same 0 1]
      montStart).1 = [.ok .nothing, .ok .nothing, .crash] := by
  decide +kernel

/-- The variables a statement may change. -/
def MontStmt.changes : MontStmt → List Nat
  | .make x _ _ | .reload x _ _ | .copy x _ | .assign x _ | .mul x _ _ | .mulIn x _ | .drop x => [x]
  | .moveNew x y | .moveAssign x y => [x, y]
  | .value _ | .same _ _ => []

theorem residues_untouched (n : Nat → Int) (z : Nat) : ∀ (cs : List MontStmt) (v : Residues),
    (∀ c ∈ cs, z ∉ c.changes) → (runResidues n cs v).2 z = v z
  | [], _, _ => rfl
  | c :: cs, v, h => by
    have hc : (onResidues n c v).2 z = v z := by
      have := h c List.mem_cons_self
      cases c <;> simp only [MontStmt.changes, List.mem_cons, List.not_mem_nil, or_false, not_or] at this <;>
        simp only [onResidues] <;> (repeat' split) <;> simp [set, this]
    have ih := residues_untouched n z cs (onResidues n c v).2 fun c hm => h c (List.mem_cons_of_mem _ hm)
    simp only [runResidues]
    rcases hr : onResidues n c v with ⟨r, v'⟩
    rw [hr] at hc ih
    cases r <;> simp_all

/-- Nothing is left of the sample. -/
theorem C143_ended (a : Nat) :
    (montRun (fun _ => true) toyContexts montSample montStart).2.mem.cell a = none := by
  refine (C143_owned_partial _ (fun _ => rfl) _ _ _ toyContexts_ok montSample ?_).2.2 (fun x => ?_) a
  · rw [C143_sample]; simp
  · have hr := (run_follows (ok := fun _ => true) (fun _ => rfl) toyContexts_ok montSample _ _
      (montStart_rel _)).2 (by rw [C143_sample]; simp)
    have hv : (runResidues toyModuli montSample fun _ => none).2 x = none := by
      by_cases hx : x < 6
      · have : ∀ x < 6, (runResidues toyModuli montSample fun _ => none).2 x = none := by decide +kernel
        exact this x hx
      · have hc : ∀ c ∈ montSample, ∀ z ∈ c.changes, z < 6 := by decide +kernel
        exact residues_untouched _ _ _ _ fun c hm hz => hx (hc c hm x hz)
    have := hr.var x
    rw [hv] at this
    rcases hx : (montRun (fun _ => true) toyContexts montSample montStart).2.vars x with _ | ⟨c, _ | a⟩ <;>
      rw [hx] at this <;> exact this.elim

end PJC.Obj
