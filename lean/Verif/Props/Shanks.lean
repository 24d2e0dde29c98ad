import Verif.Lemmas.Ec
import Verif.Model.Shanks
import Verif.Props.Ec
/-
C34: discrete logarithms of bounded messages.
-/
set_option linter.unusedSectionVars false
namespace PJC

variable {G : Type} [AddCommGroup G] [DecidableEq G]

namespace Shanks

theorem zsmul_eq_iff {E : EcGroup G} (hE : E.Lawful) {g : G} (hg : g ≠ 0) {a b : Int}
    (ha : 0 ≤ a) (ha' : a < E.order) (hb : 0 ≤ b) (hb' : b < E.order) :
    a • g = b • g ↔ a = b := by
  constructor
  · intro h
    by_contra hne
    have h0 : (a - b) • g = 0 := by rw [sub_zsmul, h]; abel
    refine hE.zsmul_ne (k := a - b) ?_ hg h0
    intro hd
    rcases lt_or_gt_of_ne hne with h | h
    · have := Int.le_of_dvd (by omega) ((Int.dvd_neg).2 hd)
      omega
    · have := Int.le_of_dvd (by omega) hd
      omega
  · rintro rfl; rfl

/-- The table maps the encoding of `i·g` to `i`, for `i` from 1 to `n`. -/
def TableOk (E : EcGroup G) (g : G) (n : Int) (table : List (Bytes × Int)) : Prop :=
  ∀ bytes : Bytes, ∀ P : G, E.toBytesCompressed P = .ok bytes →
    (∀ i, 1 ≤ i → i ≤ n → P = i • g →
      table.find? (fun kv => kv.1 = bytes) = some (bytes, i)) ∧
    ((∀ i, 1 ≤ i → i ≤ n → P ≠ i • g) →
      table.find? (fun kv => kv.1 = bytes) = none)

theorem tableLoop_spec {E : EcGroup G} (hE : E.Lawful) {g : G} (hg : g ≠ 0) :
    ∀ (n : Nat) (i : Int) (table : List (Bytes × Int)), 1 ≤ i → i + n ≤ E.order →
      TableOk E g (i - 1) table →
      ∃ table', tableLoop E g n i ((i - 1) • g) table = .ok table' ∧
        TableOk E g (i - 1 + n) table' := by
  intro n
  induction n with
  | zero => intro i table _ _ h; exact ⟨table, rfl, by simpa using h⟩
  | succ n ih =>
    intro i table hi hlt h
    push_cast at hlt
    have hstep : g + (i - 1) • g = i • g := by
      rw [sub_zsmul, one_zsmul]; abel
    have hne : i • g ≠ 0 := by
      intro h0
      have := (zsmul_eq_iff hE hg (a := i) (b := 0) (by omega) (by omega) (by omega)
        (by omega)).1 (by simpa using h0)
      omega
    obtain ⟨bytes, hb, hd⟩ := hE.toBytes_ne hne
    have hok : TableOk E g (i + 1 - 1) (table ++ [(bytes, i)]) := by
      intro b P hP
      obtain ⟨h1, h2⟩ := h b P hP
      constructor
      · intro j hj1 hj2 hPj
        rw [List.find?_append]
        by_cases hji : j = i
        · subst hji
          have hbb : bytes = b := by
            rw [hPj] at hP; rw [hP] at hb; cases hb; rfl
          have hnone := h2 (fun k hk1 hk2 hPk => by
            have := (zsmul_eq_iff hE hg (a := j) (b := k) (by omega) (by omega) (by omega)
              (by omega)).1 (hPj ▸ hPk)
            omega)
          simp [hnone, hbb]
        · rw [h1 j hj1 (by omega) hPj]; rfl
      · intro hall
        rw [List.find?_append, h2 (fun k hk1 hk2 => hall k hk1 (by omega))]
        have hbb : bytes ≠ b := by
          rintro rfl
          exact hall i (by omega) (by omega) (hE.toBytes_inj hP hb)
        simp [hbb]
    obtain ⟨t', ht', hok'⟩ := ih (i + 1) _ (by omega) (by omega) hok
    refine ⟨t', ?_, ?_⟩
    · simp only [tableLoop, hstep, hb, Res.ok_bind]
      simpa using ht'
    · have : i + 1 - 1 + (n : Int) = i - 1 + ((n + 1 : Nat) : Int) := by push_cast; ring
      rw [← this]; exact hok'

theorem precomputeTable_spec {E : EcGroup G} (hE : E.Lawful) {g : G} (hg : g ≠ 0) {pre : Int}
    (h0 : 0 ≤ pre) (h30 : pre ≤ 30) (hord : (2 : Int) ^ pre.toNat ≤ E.order) :
    ∃ table, precomputeTable E g pre = .ok table ∧ TableOk E g (2 ^ pre.toNat - 1) table := by
  have h1 : (1 : Int) ≤ 2 ^ pre.toNat := one_le_pow₀ (by norm_num)
  obtain ⟨t, ht, hok⟩ := tableLoop_spec hE hg ((2 : Int) ^ pre.toNat - 1).toNat 1 [] (by omega)
    (by omega) (by
      intro b P hP
      exact ⟨fun i h1 h2 => by omega, fun _ => rfl⟩)
  refine ⟨t, ?_, ?_⟩
  · simp only [precomputeTable, intShl, h0, h30, and_self, if_true, Res.ok_bind]
    simpa using ht
  · have : (1 : Int) - 1 + (((2 : Int) ^ pre.toNat - 1).toNat : Int) = 2 ^ pre.toNat - 1 := by
      omega
    rw [← this]; exact hok

theorem searchLoop_spec {E : EcGroup G} (hE : E.Lawful) {s : Shanks G} (hgr : s.group = E)
    (hg : s.generator ≠ 0) (h0 : 0 ≤ s.precomputeBits) (h30 : s.precomputeBits ≤ 30)
    (ht : TableOk E s.generator (2 ^ s.precomputeBits.toNat - 1) s.table)
    (hB : (2 : Int) ^ s.precomputeBits.toNat ≤ E.order) :
    ∀ (n : Nat) (i x : Int), 0 ≤ x → x < E.order →
      searchLoop s ((2 : Int) ^ s.precomputeBits.toNat • (-s.generator)) n i (x • s.generator)
        = if x < n * 2 ^ s.precomputeBits.toNat then
            .ok (2 ^ s.precomputeBits.toNat * i + x)
          else .err .invalidArgument := by
  set B : Int := 2 ^ s.precomputeBits.toNat with hBdef
  have hB1 : (1 : Int) ≤ B := one_le_pow₀ (by norm_num)
  have hshift : int64Shl s.precomputeBits = .ok B := by
    simp only [int64Shl]; rw [if_pos ⟨h0, by omega⟩]
  intro n
  induction n with
  | zero =>
    intro i x hx _
    simp only [searchLoop, Nat.cast_zero, zero_mul]
    rw [if_neg (by omega)]
  | succ n ih =>
    intro i x hx hxo
    have hnB : 0 ≤ (n : Int) * B := by positivity
    have hcast : ((n + 1 : Nat) : Int) * B = n * B + B := by push_cast; ring
    rw [hcast]
    by_cases hz : x = 0
    · subst hz
      rw [if_pos (by omega)]
      simp [searchLoop, hshift]
    · have hne : x • s.generator ≠ 0 := by
        intro h
        exact hz ((zsmul_eq_iff hE hg hx hxo (le_refl 0) (by omega)).1 (by simpa using h))
      obtain ⟨bytes, hb, hd⟩ := hE.toBytes_ne hne
      obtain ⟨t1, t2⟩ := ht bytes _ hb
      simp only [searchLoop, hne, if_false, hgr, hb, Res.ok_bind]
      by_cases hxB : x < B
      · rw [t1 x (by omega) (by omega) rfl, if_pos (by omega)]
        simp [hshift]
      · rw [t2 (fun j hj1 hj2 heq => by
          have := (zsmul_eq_iff hE hg (a := x) (b := j) hx hxo (by omega) (by omega)).1 heq
          omega)]
        have hnext : x • s.generator + B • (-s.generator) = (x - B) • s.generator := by
          rw [sub_zsmul, zsmul_neg]
        simp only [hnext]
        rw [ih (i + 1) (x - B) (by omega) (by omega)]
        by_cases hlt : x - B < n * B
        · rw [if_pos hlt, if_pos (by omega)]
          congr 1; ring
        · rw [if_neg hlt, if_neg (by omega)]

end Shanks

/-- The full statement of C34: for every configuration the factory accepts, every
message in range is recovered and every point outside the range is refused. -/
def C34Statement (E : EcGroup G) (g : G) : Prop :=
  ∀ (maxBits pre : Int) (s : Shanks G), Shanks.create E g maxBits pre = .ok s →
    (2 : Int) ^ maxBits.toNat ≤ E.order →
    ∀ x : Int, 0 ≤ x → x < E.order →
      s.getDiscreteLog (x • g) =
        if x < 2 ^ maxBits.toNat then .ok x else .err .invalidArgument

/-- **C34 is false in full**: the factory accepts 40 message bits with no precomputed
bits, and the search then shifts an `int` by 40 (undefined behaviour). -/
theorem C34_wide_search_fails (E : EcGroup G) (hE : E.Lawful)
    (hord : (2 : Int) ^ 40 ≤ E.order) (g : G) : ¬ C34Statement E g := by
  intro h
  have hc : Shanks.create E g 40 0 = .ok ⟨E, g, 40, 0, []⟩ := rfl
  have h1 := h 40 0 _ hc (by simpa using hord) 0 (le_refl 0) (by have := hE.prime.pos; omega)
  simp [Shanks.getDiscreteLog, Shanks.intShl] at h1

/-- **C34, partial**: when at most 30 bits are left to the search (so that no `int`
shift overflows), `Create` accepts exactly the configurations with
`precompute < max ≤ 40`, every message below `2^max` is recovered, and every other
point of the group is refused.  Missing: the accepted configurations with 31 to 40
search bits, for which `C34_wide_search_fails` shows undefined behaviour. -/
theorem C34_discrete_log_partial (E : EcGroup G) (hE : E.Lawful) (g : G) (hg : g ≠ 0)
    (maxBits pre : Int) (h0 : 0 ≤ pre) (h30 : pre ≤ 30) (hdiff : maxBits - pre ≤ 30)
    (hord : (2 : Int) ^ maxBits.toNat ≤ E.order) :
    ((Shanks.create E g maxBits pre).isOk ↔ pre < maxBits ∧ maxBits ≤ 40) ∧
    (¬ (pre < maxBits ∧ maxBits ≤ 40) →
      Shanks.create E g maxBits pre = .err .invalidArgument) ∧
    ∀ s, Shanks.create E g maxBits pre = .ok s → ∀ x : Int, 0 ≤ x → x < E.order →
      s.getDiscreteLog (x • g) =
        if x < 2 ^ maxBits.toNat then .ok x else .err .invalidArgument := by
  have hbad : ¬ (pre < maxBits ∧ maxBits ≤ 40) →
      Shanks.create E g maxBits pre = .err .invalidArgument := by
    intro h
    simp only [Shanks.create]
    split
    · rfl
    · rw [if_pos (by show (40 : Int) < maxBits; omega)]
  by_cases hok : pre < maxBits ∧ maxBits ≤ 40
  · have hpow : (2 : Int) ^ pre.toNat ≤ 2 ^ maxBits.toNat :=
      pow_le_pow_right₀ (by norm_num) (by omega)
    obtain ⟨t, ht, htok⟩ := Shanks.precomputeTable_spec hE hg h0 h30 (by omega)
    have hc : Shanks.create E g maxBits pre = .ok ⟨E, g, maxBits, pre, t⟩ := by
      simp only [Shanks.create]
      rw [if_neg (by omega), if_neg (by show ¬ (40 : Int) < maxBits; omega), ht]
      rfl
    refine ⟨⟨fun _ => hok, fun _ => ⟨_, hc⟩⟩, hbad, ?_⟩
    intro s hs x hx hxo
    rw [hc] at hs
    cases hs
    have hd : Shanks.intShl (maxBits - pre) = .ok (2 ^ (maxBits - pre).toNat) := by
      simp only [Shanks.intShl]; rw [if_pos ⟨by omega, hdiff⟩]
    have hp : Shanks.intShl pre = .ok (2 ^ pre.toNat) := by
      simp only [Shanks.intShl]; rw [if_pos ⟨h0, h30⟩]
    simp only [Shanks.getDiscreteLog, hd, hp, Res.ok_bind]
    have := Shanks.searchLoop_spec hE (s := ⟨E, g, maxBits, pre, t⟩) rfl hg h0 h30 htok
      (by simp only; omega) ((2 : Int) ^ (maxBits - pre).toNat).toNat 0 x hx hxo
    simp only at this
    rw [this]
    have hmul : (((2 : Int) ^ (maxBits - pre).toNat).toNat : Int) * 2 ^ pre.toNat
        = 2 ^ maxBits.toNat := by
      rw [Int.toNat_of_nonneg (by positivity), ← pow_add]
      congr 1; omega
    rw [hmul]
    simp
  · refine ⟨⟨fun ⟨s, hs⟩ => ?_, fun h => absurd h hok⟩, hbad, fun s hs => ?_⟩
    · rw [hbad hok] at hs; cases hs
    · rw [hbad hok] at hs; cases hs

/-- The hypotheses are met, e.g. 3-bit messages with a 2-bit table in Z/11. -/
example : ∃ s, Shanks.create toyEc 1 3 2 = .ok s ∧ (2 : Int) ^ 3 ≤ toyEc.order ∧
    s.getDiscreteLog ((7 : Int) • 1) = .ok 7 ∧
    s.getDiscreteLog ((9 : Int) • 1) = .err .invalidArgument :=
  ⟨⟨toyEc, 1, 3, 2, [([1], 1), ([2], 2), ([3], 3)]⟩, rfl, by decide, by decide, by decide⟩

end PJC
