import Verif.Model.PyPrng
import Verif.Lemmas.Interop
/-
C115: the Python generator `PRNG` reads a fixed stream of hash values, byte by byte and each byte
once, and `GetRand` is rejection sampling on it.

Specification: `stream` (all the bytes a seed can give), `value` (a chunk of bytes as a number),
`Draw` (rejection sampling on a list of bytes).
-/
namespace PJC.Py.Prng
open PJC

/-! ### Specification -/

/-- `i` in `w` bytes, most significant first. -/
def beBytes : Nat → Nat → Bytes
  | 0, _ => []
  | w + 1, i => beBytes w (i / 256) ++ [Fin.ofNat 256 i]

/-- Block `i`: SHA-512 of the counter, in `counterLen` bytes (at least one), and the seed. -/
def block (H : Hashes) (seed : Bytes) (counterLen i : Nat) : Bytes :=
  H.sha512 (beBytes (max counterLen 1) i ++ seed)

/-- Blocks `i`, `i + 1`, ..., `i + n - 1`, one after the other. -/
def blocksFrom (H : Hashes) (seed : Bytes) (counterLen : Nat) : Nat → Nat → Bytes
  | _, 0 => []
  | i, n + 1 => block H seed counterLen i ++ blocksFrom H seed counterLen (i + 1) n

/-- All the bytes that a generator can give. -/
def stream (H : Hashes) (seed : Bytes) (counterLen : Nat) : Bytes :=
  blocksFrom H seed counterLen 0 (256 ^ counterLen)

/-- The number of bits that are drawn for numbers below `upper`, for positive `upper`: the least `n` with `upper ≤ 2^n`. -/
def bits (upper : Int) : Nat := Nat.size (upper - 1).natAbs

/-- The number of bytes for `n` bits. -/
def chunk (n : Nat) : Nat := (n + 7) / 8

/-- The number that a chunk of bytes stands for: its first `n` bits. -/
def value (n : Nat) (bs : Bytes) : Int := BN.ofBytes bs / 2 ^ (8 * chunk n - n)

/-- Rejection sampling on a list of bytes: from the first list, the number `r`
is drawn and the second list remains. -/
inductive Draw (upper : Int) : Bytes → Int → Bytes → Prop where
  | accept (c rest : Bytes) (hc : c.length = chunk (bits upper))
      (hv : value (bits upper) c < upper) : Draw upper (c ++ rest) (value (bits upper) c) rest
  | reject (c rest rest' : Bytes) (r : Int) (hc : c.length = chunk (bits upper))
      (hv : upper ≤ value (bits upper) c) (h : Draw upper rest r rest') :
      Draw upper (c ++ rest) r rest'

/-- What is left of the stream for an object: the bytes it has kept, and the blocks it has not
computed. -/
def remaining (H : Hashes) (s : Prng) : Bytes :=
  s.curBytes ++ blocksFrom H s.seed s.curByteLen s.curPad (s.limit - s.curPad)

/-- Objects as the constructor makes them, after any number of calls. -/
structure Good (s : Prng) : Prop where
  limit : s.limit = 256 ^ s.curByteLen
  pad : s.curPad ≤ s.limit

/-! ### Bytes -/

theorem beBytes_length (w i : Nat) : (beBytes w i).length = w := by
  induction w generalizing i with
  | zero => rfl
  | succ w ih => simp [beBytes, ih]

theorem ofBytes_snoc (bs : Bytes) (b : Byte) :
    BN.ofBytes (bs ++ [b]) = BN.ofBytes bs * 256 + b.val := by
  simp [BN.ofBytes]

theorem ofBytes_beBytes {w i : Nat} (h : i < 256 ^ w) : BN.ofBytes (beBytes w i) = i := by
  induction w generalizing i with
  | zero => simp at h; subst h; rfl
  | succ w ih =>
    rw [beBytes, ofBytes_snoc, ih (by rw [pow_succ] at h; omega)]
    simp only [Fin.val_ofNat]
    omega

theorem eq_beBytes {bs : Bytes} {i : Nat} (h : BN.ofBytes bs = i) : bs = beBytes bs.length i := by
  induction bs using List.reverseRecOn generalizing i with
  | nil => rfl
  | append_singleton bs b ih =>
    rw [ofBytes_snoc] at h
    have h0 := BN.ofBytes_nonneg bs
    have hb := b.isLt
    have h1 : BN.ofBytes bs = ((i / 256 : Nat) : Int) := by omega
    have h2 : b = Fin.ofNat 256 i := by
      apply Fin.ext
      simp only [Fin.val_ofNat]
      omega
    rw [List.length_append, List.length_singleton, beBytes, ← ih h1, ← h2]

theorem ofBytes_replicate_append (k : Nat) (bs : Bytes) :
    BN.ofBytes (List.replicate k 0 ++ bs) = BN.ofBytes bs := by
  induction k with
  | zero => rfl
  | succ k ih => rw [List.replicate_succ, List.cons_append, ofBytes_zero_cons, ih]

/-- The padded counter. -/
theorem padded {s : Prng} (h : s.curPad < 256 ^ s.curByteLen) :
    s.paddedCountBytes = .ok (beBytes (max s.curByteLen 1) s.curPad) := by
  have key : ∀ c : Bytes, longToBytes s.curPad = .ok c → BN.ofBytes c = s.curPad →
      c.length ≤ max s.curByteLen 1 → (s.curByteLen = 0 → c.length = 1) →
      s.paddedCountBytes = .ok (beBytes (max s.curByteLen 1) s.curPad) := by
    intro c h1 h2 h3 h4
    have hl : (List.replicate (s.curByteLen - c.length) (0 : Byte) ++ c).length =
        max s.curByteLen 1 := by
      rw [List.length_append, List.length_replicate]
      rcases Nat.eq_zero_or_pos s.curByteLen with h0 | h0
      · have := h4 h0; omega
      · omega
    have := eq_beBytes (bs := List.replicate (s.curByteLen - c.length) (0 : Byte) ++ c)
      ((ofBytes_replicate_append _ _).trans h2)
    rw [hl] at this
    simp only [paddedCountBytes, h1, Out.ok_bind, Out.pure_eq]
    rw [this]
  rcases Nat.eq_zero_or_pos s.curPad with h0 | h0
  · refine key [0] (by rw [h0]; exact longToBytes_zero) (by rw [h0]; rfl) ?_ (fun _ => rfl)
    exact le_max_right _ _
  · refine key _ (longToBytes_pos (by exact_mod_cast h0)) ?_ ?_ ?_
    · rw [BN.ofBytes_natToBytes]; rfl
    · exact (BN.natToBytes_length_le h).trans (le_max_left _ _)
    · intro hz
      rw [hz] at h
      omega

/-! ### The methods -/

theorem getMore_spec {H : Hashes} {s : Prng} (hg : Good s) :
    (s.curPad = s.limit → s.getMore H = (.raises .assertionError, s)) ∧
    (s.curPad < s.limit → ∃ s', s.getMore H = (.ok (), s') ∧ Good s' ∧
      remaining H s' = remaining H s ∧ s'.curPad = s.curPad + 1 ∧ s'.limit = s.limit ∧
      s'.curBytes = s.curBytes ++ block H s.seed s.curByteLen s.curPad) := by
  constructor
  · intro h
    simp [getMore, h]
  · intro h
    have hp := padded (s := s) (by rw [← hg.limit]; exact h)
    refine ⟨{ s with
        curPad := s.curPad + 1
        curBytes := s.curBytes ++ block H s.seed s.curByteLen s.curPad },
      by simp only [getMore, h, not_true_eq_false, if_false, hp]; rfl, ⟨hg.limit, h⟩, ?_, rfl,
      rfl, rfl⟩
    obtain ⟨k, hk⟩ : ∃ k, s.limit - s.curPad = k + 1 := ⟨s.limit - s.curPad - 1, by omega⟩
    have hk' : s.limit - (s.curPad + 1) = k := by omega
    simp only [remaining, hk, hk', blocksFrom, List.append_assoc]

theorem fill_spec {H : Hashes} (n : Nat) : ∀ (fuel : Nat) {s : Prng}, Good s →
    s.limit - s.curPad = fuel → ∃ s', Good s' ∧ remaining H s' = remaining H s ∧
      ((s.fill H n fuel = (.ok (), s') ∧ n ≤ s'.curBytes.length) ∨
       (s.fill H n fuel = (.raises .assertionError, s') ∧ (remaining H s).length < n))
  | 0, s, hg, hf => by
    unfold fill
    by_cases h : s.curBytes.length < n
    · refine ⟨s, hg, rfl, Or.inr ⟨?_, ?_⟩⟩
      · rw [if_pos h]
        have := hg.pad
        exact (getMore_spec hg).1 (by omega)
      · simp [remaining, hf, blocksFrom, h]
    · exact ⟨s, hg, rfl, Or.inl ⟨by rw [if_neg h], by omega⟩⟩
  | fuel + 1, s, hg, hf => by
    unfold fill
    by_cases h : s.curBytes.length < n
    · obtain ⟨s1, e1, g1, r1, p1, l1, -⟩ := (getMore_spec (H := H) hg).2 (by omega)
      obtain ⟨s', g', r', hh⟩ := fill_spec n fuel g1 (by omega)
      rw [if_pos h, e1]
      rw [r1] at r' hh
      exact ⟨s', g', r', hh⟩
    · exact ⟨s, hg, rfl, Or.inl ⟨by rw [if_neg h], by omega⟩⟩

theorem value_eq (n : Nat) (bs : Bytes) :
    (((bytesToLong bs).toNat >>> ((8 - n % 8) % 8) : Nat) : Int) = value n bs := by
  have h := BN.ofBytes_nonneg bs
  rw [bytesToLong_eq, Nat.shiftRight_eq_div_pow, value]
  have : 8 * chunk n - n = (8 - n % 8) % 8 := by unfold chunk; omega
  rw [this]
  push_cast
  rw [Int.toNat_of_nonneg h]

theorem getNBitRand_spec {H : Hashes} (n : Nat) {s : Prng} (hg : Good s) :
    ∃ s', Good s' ∧
      ((∃ c, c.length = chunk n ∧ remaining H s = c ++ remaining H s' ∧
          s.getNBitRand H n = (.ok (value n c), s')) ∨
       (remaining H s' = remaining H s ∧ (remaining H s).length < chunk n ∧
          s.getNBitRand H n = (.raises .assertionError, s'))) := by
  obtain ⟨s1, g1, r1, hh⟩ := fill_spec (H := H) (chunk n) _ hg rfl
  have hc : (n + 7) >>> 3 = chunk n := by rw [Nat.shiftRight_eq_div_pow]; rfl
  unfold getNBitRand
  simp only [hc]
  rcases hh with ⟨e, hl⟩ | ⟨e, hl⟩
  · refine ⟨{ s1 with curBytes := s1.curBytes.drop (chunk n) }, ⟨g1.limit, g1.pad⟩,
      Or.inl ⟨s1.curBytes.take (chunk n), by simp [hl], ?_, ?_⟩⟩
    · rw [← r1]
      simp only [remaining]
      rw [← List.append_assoc, List.take_append_drop]
    · rw [e]
      simp only [value_eq]
  · exact ⟨s1, g1, Or.inr ⟨r1, hl, by rw [e]⟩⟩

theorem Draw.pos {upper : Int} {b r b'} (h : Draw upper b r b') : 0 ≤ r ∧ r < upper := by
  induction h with
  | accept c rest hc hv =>
    exact ⟨Int.ediv_nonneg (BN.ofBytes_nonneg _) (by positivity), hv⟩
  | reject _ _ _ _ _ _ _ ih => exact ih

theorem loop_spec {H : Hashes} (upper : Int) : ∀ (fuel : Nat) {s : Prng}, Good s →
    (∀ x, s.getRandLoop H upper (bits upper) fuel = some x → Good x.2 ∧
      ((∃ r, x.1 = .ok r ∧ Draw upper (remaining H s) r (remaining H x.2)) ∨
       (x.1 = .raises .assertionError ∧ (∀ r b, ¬ Draw upper (remaining H s) r b) ∧
         (remaining H x.2).length < chunk (bits upper) ∧
         ∃ used, remaining H s = used ++ remaining H x.2))) ∧
    ((remaining H s).length < fuel → (s.getRandLoop H upper (bits upper) fuel).isSome)
  | 0, s, hg => by simp [getRandLoop]
  | fuel + 1, s, hg => by
    obtain ⟨s1, g1, hh⟩ := getNBitRand_spec (H := H) (bits upper) hg
    rcases hh with ⟨c, hc, hr, e⟩ | ⟨hr, hl, e⟩
    · by_cases hv : upper ≤ value (bits upper) c
      · have e2 : s.getRandLoop H upper (bits upper) (fuel + 1) =
            s1.getRandLoop H upper (bits upper) fuel := by
          rw [getRandLoop, e]
          simp only [hv, if_true]
        obtain ⟨i1, i2⟩ := loop_spec (H := H) upper fuel g1
        rw [e2]
        constructor
        · intro x hx
          obtain ⟨gx, h | ⟨h1, h2, h3, used, h4⟩⟩ := i1 x hx
          · obtain ⟨r, h1, h2⟩ := h
            exact ⟨gx, Or.inl ⟨r, h1, by rw [hr]; exact .reject c _ _ r hc hv h2⟩⟩
          · refine ⟨gx, Or.inr ⟨h1, ?_, h3, c ++ used, by rw [hr, h4, List.append_assoc]⟩⟩
            intro r b hd
            rw [hr] at hd
            generalize hw : c ++ remaining H s1 = w at hd
            cases hd with
            | accept c' rest hc' hv' =>
              obtain ⟨rfl, -⟩ := List.append_inj hw (hc.trans hc'.symm)
              omega
            | reject c' rest _ _ hc' hv' hd =>
              obtain ⟨rfl, rfl⟩ := List.append_inj hw (hc.trans hc'.symm)
              exact h2 _ _ hd
        · intro hlen
          apply i2
          have hpos : 0 < chunk (bits upper) := by
            by_contra h0
            have hc0 : c = [] := List.length_eq_zero_iff.1 (by omega)
            have hb : bits upper = 0 := by unfold chunk at h0; omega
            have hz : value (bits upper) c = 0 := by rw [hc0, hb]; rfl
            unfold bits at hb
            rw [Nat.size_eq_zero] at hb
            omega
          rw [hr, List.length_append] at hlen
          omega
      · have e2 : s.getRandLoop H upper (bits upper) (fuel + 1) =
            some (.ok (value (bits upper) c), s1) := by
          rw [getRandLoop, e]
          simp only [hv, if_false]
        rw [e2]
        refine ⟨?_, fun _ => rfl⟩
        rintro x hx
        cases hx
        exact ⟨g1, Or.inl ⟨_, rfl, by rw [hr]; exact .accept c _ hc (by omega)⟩⟩
    · have e2 : s.getRandLoop H upper (bits upper) (fuel + 1) =
          some (.raises .assertionError, s1) := by
        rw [getRandLoop, e]
      rw [e2]
      refine ⟨?_, fun _ => rfl⟩
      rintro x hx
      cases hx
      refine ⟨g1, Or.inr ⟨rfl, ?_, by rw [hr]; exact hl, [], by rw [hr]; rfl⟩⟩
      intro r b hd
      generalize remaining H s = w at hd hl
      cases hd with
      | accept c' rest hc' hv' => rw [List.length_append] at hl; omega
      | reject c' rest _ _ hc' hv' hd => rw [List.length_append] at hl; omega

/-! ### C115 -/

/-- **C115, seeds**.  The constructor takes a seed of at least 32 bytes, and raises ValueError for
a shorter one. -/
theorem C115_seed (seed : Bytes) (counterLen : Nat) :
    (seed.length < 32 → Prng.init (.bytes seed) counterLen = .raises .valueError) ∧
    (32 ≤ seed.length → ∃ s, Prng.init (.bytes seed) counterLen = .ok s) := by
  constructor
  · intro h
    simp [Prng.init, h]
  · intro h
    simp [Prng.init, not_lt.2 h]

/-- **C115, numbers as seeds**.  A number below 2^248 is refused with ValueError, any other is the
same seed as its big-endian bytes. -/
theorem C115_seed_number (n : Int) (counterLen : Nat) :
    (n < 2 ^ 248 → Prng.init (.int n) counterLen = .raises .valueError) ∧
    (2 ^ 248 ≤ n → Prng.init (.int n) counterLen =
      Prng.init (.bytes (BN.natToBytes n.toNat)) counterLen ∧
      (Prng.init (.int n) counterLen ≠ .raises .valueError)) := by
  constructor
  · intro h
    rcases lt_trichotomy n 0 with h0 | h0 | h0
    · simp [Prng.init, longToBytes_neg h0]
    · subst h0
      simp [Prng.init, longToBytes_zero]
    · have hl : (BN.natToBytes n.toNat).length ≤ 31 := BN.natToBytes_length_le (by norm_num; omega)
      simp [Prng.init, longToBytes_pos h0, show (BN.natToBytes n.toNat).length < 32 by omega]
  · intro h
    have h0 : 0 < n := by norm_num at h; omega
    have hl : ¬ (BN.natToBytes n.toNat).length < 32 := by
      intro hl
      have h1 := BN.ofBytes_lt (BN.natToBytes n.toNat)
      rw [BN.ofBytes_natToBytes, Int.toNat_of_nonneg h0.le] at h1
      have h2 : (256 : Int) ^ (BN.natToBytes n.toNat).length ≤ 256 ^ 31 :=
        pow_le_pow_right₀ (by norm_num) (by omega)
      norm_num at h h2
      omega
    simp [Prng.init, longToBytes_pos h0, hl]

/-- **C115, the start**.  A new generator has the whole stream of its seed before it. -/
theorem C115_start (H : Hashes) {seed : Bytes} {counterLen : Nat} {s : Prng}
    (h : Prng.init (.bytes seed) counterLen = .ok s) :
    Good s ∧ remaining H s = stream H seed counterLen := by
  simp only [Prng.init, Out.ok_bind] at h
  split at h
  · cases h
  · cases h
    have e : 1 <<< (counterLen * 8) = 256 ^ counterLen := by
      rw [Nat.shiftLeft_eq, one_mul, mul_comm, pow_mul]
      norm_num
    refine ⟨⟨e, Nat.zero_le _⟩, ?_⟩
    simp only [remaining, stream, List.nil_append, e, Nat.sub_zero]

/-- **C115, `GetRand`**.  For every object, after whatever calls: when `GetRand` returns a number it
has drawn it by rejection sampling from what is left of the stream, it lies in `[0, upper)`, and the
object goes on with the rest, so that no byte is used twice.  Otherwise it raises AssertionError;
then nothing can be drawn from what is left.  With a bound on the rounds that is above the length of
the remaining stream one of the two happens. -/
theorem C115_getRand (H : Hashes) {s : Prng} (hg : Good s) (upper : Int) (fuel : Nat) :
    (∀ r s', s.getRand H fuel upper = some (.ok r, s') →
      Good s' ∧ 0 ≤ r ∧ r < upper ∧ Draw upper (remaining H s) r (remaining H s')) ∧
    (∀ e s', s.getRand H fuel upper = some (.raises e, s') →
      Good s' ∧ e = .assertionError ∧ (∀ r b, ¬ Draw upper (remaining H s) r b) ∧
      ∃ used, remaining H s = used ++ remaining H s') ∧
    ((remaining H s).length < fuel → (s.getRand H fuel upper).isSome) := by
  obtain ⟨h1, h2⟩ := loop_spec (H := H) upper fuel hg
  refine ⟨fun r s' h => ?_, fun e s' h => ?_, h2⟩
  · obtain ⟨g, ⟨r', e, d⟩ | ⟨e, -⟩⟩ := h1 _ h
    · cases e
      exact ⟨g, d.pos.1, d.pos.2, d⟩
    · cases e
  · obtain ⟨g, ⟨r', e, d⟩ | ⟨e, d, -, u⟩⟩ := h1 _ h
    · cases e
    · cases e
      exact ⟨g, rfl, d, u⟩

/-- `GetRand` for one limit after the other; `none` if one of the calls has not ended, or raised. -/
def getRands (H : Hashes) (fuel : Nat) (s : Prng) : List Int → Option (List Int × Prng)
  | [] => some ([], s)
  | u :: us =>
    match s.getRand H fuel u with
    | some (.ok r, s') => (getRands H fuel s' us).map (fun x => (r :: x.1, x.2))
    | _ => none

/-- Rejection sampling for one limit after the other. -/
inductive Draws : List Int → Bytes → List Int → Bytes → Prop where
  | nil (b : Bytes) : Draws [] b [] b
  | cons {u : Int} {us : List Int} {b b' b'' : Bytes} {r : Int} {rs : List Int}
      (h : Draw u b r b') (t : Draws us b' rs b'') : Draws (u :: us) b (r :: rs) b''

/-- **C115, histories**.  A new generator, asked for numbers below any limits one after the other,
gives what rejection sampling gives on the stream of its seed. -/
theorem C115_history (H : Hashes) {seed : Bytes} {counterLen : Nat} {s : Prng}
    (h : Prng.init (.bytes seed) counterLen = .ok s) (fuel : Nat) (us rs : List Int) (s' : Prng)
    (hr : getRands H fuel s us = some (rs, s')) :
    ∃ rest, Draws us (stream H seed counterLen) rs rest := by
  obtain ⟨g, e⟩ := C115_start H h
  rw [← e]
  clear e h
  induction us generalizing s rs with
  | nil => cases hr; exact ⟨_, .nil _⟩
  | cons u us ih =>
    simp only [getRands] at hr
    split at hr
    · rename_i r s1 h1
      cases h2 : getRands H fuel s1 us with
      | none => rw [h2] at hr; cases hr
      | some x =>
        rw [h2] at hr
        cases hr
        obtain ⟨g1, -, -, d⟩ := (C115_getRand H g u fuel).1 _ _ h1
        obtain ⟨rest, t⟩ := ih x.1 h2 g1
        exact ⟨rest, .cons d t⟩
    · cases hr

/-- **C115, one outcome**.  Rejection sampling on a given list has one outcome. -/
theorem C115_draw_unique {upper : Int} {b : Bytes} {r r' : Int} {c c' : Bytes}
    (h : Draw upper b r c) (h' : Draw upper b r' c') : r = r' ∧ c = c' := by
  induction h with
  | accept d rest hd hv =>
    generalize hw : d ++ rest = w at h'
    cases h' with
    | accept d' rest' hd' hv' =>
      obtain ⟨rfl, rfl⟩ := List.append_inj hw (hd.trans hd'.symm)
      exact ⟨rfl, rfl⟩
    | reject d' rest' _ _ hd' hv' _ =>
      obtain ⟨rfl, rfl⟩ := List.append_inj hw (hd.trans hd'.symm)
      omega
  | reject d rest _ _ hd hv _ ih =>
    generalize hw : d ++ rest = w at h'
    cases h' with
    | accept d' rest' hd' hv' =>
      obtain ⟨rfl, rfl⟩ := List.append_inj hw (hd.trans hd'.symm)
      omega
    | reject d' rest' _ _ hd' hv' h2 =>
      obtain ⟨rfl, rfl⟩ := List.append_inj hw (hd.trans hd'.symm)
      exact ih h2

/-- **C115, no bias**.  Among all chunks of bytes each number below `2^n` has the same number of
chunks; in particular each number below `upper`. -/
theorem C115_unbiased (n : Nat) (v : Nat) (hv : v < 2 ^ n) :
    Nat.card {c : Bytes // c.length = chunk n ∧ value n c = v} = 2 ^ (8 * chunk n - n) := by
  set e := 8 * chunk n - n with he
  have hn : 8 * chunk n = n + e := by unfold chunk at *; omega
  have h256 : 256 ^ chunk n = 2 ^ n * 2 ^ e := by
    rw [← pow_add, ← hn, pow_mul]
    norm_num
  have hpos : 0 < 2 ^ e := by positivity
  have hlt : ∀ k : Fin (2 ^ e), v * 2 ^ e + k.val < 256 ^ chunk n := by
    intro k
    rw [h256]
    calc v * 2 ^ e + k.val < v * 2 ^ e + 2 ^ e := by have := k.isLt; omega
      _ = (v + 1) * 2 ^ e := by ring
      _ ≤ 2 ^ n * 2 ^ e := Nat.mul_le_mul_right _ hv
  rw [← Nat.card_fin (2 ^ e)]
  symm
  apply Nat.card_congr
  refine Equiv.ofBijective (fun k => ⟨beBytes (chunk n) (v * 2 ^ e + k.val), beBytes_length _ _, ?_⟩)
    ⟨?_, ?_⟩
  · rw [value, ofBytes_beBytes (hlt k), ← he]
    have : (v * 2 ^ e + k.val) / 2 ^ e = v := by
      rw [mul_comm, Nat.mul_add_div hpos, Nat.div_eq_of_lt k.isLt, add_zero]
    exact_mod_cast this
  · intro k k' hk
    have h1 : beBytes (chunk n) (v * 2 ^ e + k.val) = beBytes (chunk n) (v * 2 ^ e + k'.val) :=
      congrArg Subtype.val hk
    have h2 := congrArg BN.ofBytes h1
    rw [ofBytes_beBytes (hlt k), ofBytes_beBytes (hlt k')] at h2
    apply Fin.ext
    have h3 : v * 2 ^ e + k.val = v * 2 ^ e + k'.val := by exact_mod_cast h2
    omega
  · rintro ⟨c, hc, hval⟩
    obtain ⟨m, hm⟩ : ∃ m : Nat, BN.ofBytes c = m := ⟨_, rfl⟩
    rw [value, hm, ← he] at hval
    have hval' : m / 2 ^ e = v := by exact_mod_cast hval
    refine ⟨⟨m % 2 ^ e, Nat.mod_lt _ hpos⟩, ?_⟩
    apply Subtype.ext
    show beBytes (chunk n) (v * 2 ^ e + m % 2 ^ e) = c
    have := eq_beBytes hm
    rw [hc] at this
    rw [this, ← hval', mul_comm, Nat.div_add_mod]

/-- **C115, few rejections**.  More than half of the numbers that can be drawn are accepted. -/
theorem C115_acceptance {upper : Int} (h : 1 ≤ upper) :
    upper ≤ 2 ^ bits upper ∧ (2 : Int) ^ bits upper < 2 * upper := by
  obtain ⟨m, hm⟩ : ∃ m : Nat, upper = m + 1 := ⟨(upper - 1).toNat, by omega⟩
  subst hm
  have e : bits ((m : Int) + 1) = Nat.size m := by simp [bits]
  rw [e]
  have h1 := Nat.lt_size_self m
  constructor
  · exact_mod_cast h1
  · rcases Nat.eq_zero_or_pos m with rfl | hp
    · simp
    · obtain ⟨k, hk⟩ : ∃ k, Nat.size m = k + 1 :=
        ⟨Nat.size m - 1, by have := Nat.size_pos.2 hp; omega⟩
      have h2 : 2 ^ k ≤ m := Nat.lt_size.1 (by omega)
      rw [hk, pow_succ]
      have h3 : (2 : Int) ^ k ≤ m := by exact_mod_cast h2
      omega

/-- **C115, inputs**.  Different blocks, of the same seed or of different seeds, hash different
inputs. -/
theorem C115_inputs (counterLen i j : Nat) (hi : i < 256 ^ counterLen) (hj : j < 256 ^ counterLen)
    (seed seed' : Bytes)
    (h : beBytes (max counterLen 1) i ++ seed = beBytes (max counterLen 1) j ++ seed') :
    i = j ∧ seed = seed' := by
  obtain ⟨h1, h2⟩ := List.append_inj h (by rw [beBytes_length, beBytes_length])
  have hle : 256 ^ counterLen ≤ 256 ^ max counterLen 1 :=
    Nat.pow_le_pow_right (by norm_num) (le_max_left _ _)
  have := congrArg BN.ofBytes h1
  rw [ofBytes_beBytes (by omega), ofBytes_beBytes (by omega)] at this
  exact ⟨by exact_mod_cast this, h2⟩

/-- **C115, no number**.  `GetRand` of a limit that is not positive does not return a number; it
computes all blocks that are left and then raises AssertionError. -/
theorem C115_not_positive (H : Hashes) {s : Prng} (hg : Good s) {upper : Int} (hu : upper ≤ 0)
    {fuel : Nat} (hf : (remaining H s).length < fuel) :
    ∃ s', s.getRand H fuel upper = some (.raises .assertionError, s') ∧
      (remaining H s').length < chunk (bits upper) := by
  obtain ⟨h1, h2⟩ := loop_spec (H := H) upper fuel hg
  obtain ⟨x, hx⟩ := Option.isSome_iff_exists.1 (h2 hf)
  obtain ⟨-, ⟨r, -, d⟩ | ⟨e, -, hl, -⟩⟩ := h1 x hx
  · have := d.pos
    omega
  · exact ⟨x.2, by rw [← e]; exact hx, hl⟩

/-! ### Examples -/

/-- A hash whose digests are 64 times the fourth byte of the input (the last one of the counter). -/
def toyHashes : Hashes where
  sha256 _ := []
  sha384 _ := []
  sha512 d := List.replicate 63 (d.getD 3 0) ++ [255]
  hmacSha512 _ _ := []

def toySeed : Bytes := List.replicate 32 7

def toyPrng : Prng := ⟨toySeed, 0, [], 4, 2 ^ 32⟩

example : Prng.init (.bytes toySeed) = .ok toyPrng := by decide

/-- 62 numbers from the first block are 0; the byte 255 is 31 in 5 bits, too large for 20, so that
the next is the first byte of the second block. -/
example : (getRands toyHashes 3 toyPrng (List.replicate 63 20 ++ [20, 100, 300])).map Prod.fst =
    some (List.replicate 63 0 ++ [0, 0, 2]) := by decide +kernel

example : Good toyPrng := ⟨by decide, by decide⟩

/-- A generator with a counter of no bytes has one block. -/
example : (getRands toyHashes 3 ⟨toySeed, 0, [], 0, 1⟩ [2 ^ 504, 256]).map Prod.fst =
    some [BN.ofBytes (List.replicate 63 7), 255] := by decide +kernel

example : ((Prng.getRand toyHashes 70 ⟨toySeed, 0, [], 0, 1⟩ (2 ^ 520)).map Prod.fst) =
    some (.raises .assertionError) := by decide +kernel

example : ((Prng.getRand toyHashes 70 ⟨toySeed, 0, [], 0, 1⟩ 0).map Prod.fst) =
    some (.raises .assertionError) := by decide +kernel

end PJC.Py.Prng
