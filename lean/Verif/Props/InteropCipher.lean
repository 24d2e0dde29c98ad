import Verif.Lemmas.InteropCipher
/-
C112: ciphertexts and keys of the C++, Java and Python implementations of the commutative
cipher can be exchanged.
-/
namespace PJC
namespace Interop
open Curve

/-- The C++ constant. -/
def Hash.cpp : Hash → PJC.HashType
  | .sha256 => .sha256
  | .sha384 => .sha384
  | .sha512 => .sha512

/-- The three packages. -/
inductive Lang where
  | cpp | java | python
  deriving DecidableEq, Repr

/-- The libraries the three packages stand on, and a bound on the rounds of the hash. -/
structure World (c : Curve) (q : Nat) [Fact q.Prime] where
  H : Hashes
  /-- `BN_mod_sqrt` of the C++ library. -/
  sqrt : BigNum → BigNum → Res BigNum
  /-- `EC_hash_to_curve_..._sswu`. -/
  sswu : Bytes → Bytes → Res (c.W q).Point
  /-- BouncyCastle's square root and scalar multiplication. -/
  bc : Int → Option Int
  bcMul : Int → RawPoint → RawPoint
  /-- The ssl library found by Python, and the random word of its key generator. -/
  L : Py.Lib
  word : Nat
  fuel : Nat

/-- What is assumed of the libraries: digest lengths, square roots, scalar multiplication,
and that the Python library decodes like BoringSSL or like OpenSSL and takes the keys
between 1 and the order. -/
structure World.Ok {c : Curve} {q : Nat} [Fact q.Prime] (w : World c q) : Prop where
  sha : Sha2 w.H
  sqrt : SqrtOk w.sqrt q
  bc : BcSqrt w.bc q
  bcMul : ∀ k P, w.bcMul k P = mulRaw c q k P
  pySqrt : SqrtOk w.L.sqrt q
  pyMul : ∀ k P, w.L.mul k P = mulRaw c q k P
  pyDecode : w.L.oct2point = c.oct2point ∨ w.L.oct2point = sec1Decode c
  pyKeys : ∀ k : Int, 0 < k → k < c.order → w.L.acceptsKey k = true

section
variable {c : Curve} {q : Nat} [Fact q.Prime] {gx gy : Int}

/-- The C++ group object. -/
noncomputable def World.group (w : World c q) (gx gy : Int) : EcGroup (c.W q).Point :=
  c.toEcGroup q (c.basePoint q gx gy) w.H w.sqrt w.fuel w.sswu

/-- The value of a call that succeeded, for each package. -/
def cppValue {α : Type} : Res α → Option α
  | .ok a => some a
  | _ => none
def javaValue {α : Type} : Java.Out α → Option α
  | .ok a => some a
  | .throws _ => none
def pyValue {α : Type} : Py.Out α → Option α
  | .ok a => some a
  | .raises _ => none

/-- Make a cipher from key bytes with the package `l`, and encrypt a string. -/
noncomputable def World.encrypt (w : World c q) (gx gy : Int) (l : Lang) (t : Hash)
    (key m : Bytes) : Option Bytes :=
  match l with
  | .cpp => cppValue do
      let k ← EcCipher.createFromKey (.ok (w.group gx gy)) key t.cpp
      k.encrypt m
  | .java => do
      let k ← javaValue (Java.createFromKey c t.java key)
      let r ← Java.encrypt w.H w.bc w.bcMul w.fuel k m
      javaValue r
  | .python => do
      let k ← pyValue (Py.create w.L c (some key) (some t.py) w.word)
      let r ← Py.encrypt w.L w.H w.fuel k m
      pyValue r

/-- Make a cipher from key bytes with the package `l`, and encrypt a ciphertext again. -/
noncomputable def World.reEncrypt (w : World c q) (gx gy : Int) (l : Lang) (t : Hash)
    (key ct : Bytes) : Option Bytes :=
  match l with
  | .cpp => cppValue do
      let k ← EcCipher.createFromKey (.ok (w.group gx gy)) key t.cpp
      k.reEncrypt ct
  | .java => javaValue do
      let k ← Java.createFromKey c t.java key
      Java.reEncrypt w.bc w.bcMul k ct
  | .python => pyValue do
      let k ← Py.create w.L c (some key) (some t.py) w.word
      Py.reEncrypt w.L k ct

/-- Make a cipher from key bytes with the package `l`, and decrypt a ciphertext. -/
noncomputable def World.decrypt (w : World c q) (gx gy : Int) (l : Lang) (t : Hash)
    (key ct : Bytes) : Option Bytes :=
  match l with
  | .cpp => cppValue do
      let k ← EcCipher.createFromKey (.ok (w.group gx gy)) key t.cpp
      k.decrypt ct
  | .java => javaValue do
      let k ← Java.createFromKey c t.java key
      Java.decrypt w.bc w.bcMul k ct
  | .python => pyValue do
      let k ← Py.create w.L c (some key) (some t.py) w.word
      Py.decrypt w.L k ct

/-- Key bytes that all three packages take: the number is above 1 and below the order. -/
def ValidKey (c : Curve) (key : Bytes) : Prop := 1 < BN.ofBytes key ∧ BN.ofBytes key < c.order

/-! ### Keys -/

theorem group_lawful (hc : c.Certified q gx gy) (w : World c q) : (w.group gx gy).Lawful :=
  toEcGroup_lawful hc.proper _ hc.basePoint_ne hc.prime hc.card _ _ _ _

theorem gcd_order (hc : c.Certified q gx gy) {k : Int} (h : ¬ (c.order : Int) ∣ k) :
    Int.gcd k c.order = 1 := by
  rw [Int.gcd_comm]
  have : Nat.Coprime c.order k.natAbs :=
    (Nat.Prime.coprime_iff_not_dvd hc.prime).2 (fun hd => h (Int.natCast_dvd.2 hd))
  simpa [Int.gcd, Nat.Coprime] using this

theorem not_dvd {k : Int} (h0 : 0 < k) (h1 : k < c.order) : ¬ (c.order : Int) ∣ k := by
  intro h
  have := Int.le_of_dvd h0 h
  omega

theorem java_create {t : Hash} {key : Bytes} (hk : ValidKey c key) :
    Java.createFromKey c t.java key = .ok ⟨c, t.java, BN.ofBytes key⟩ := by
  have := hk.1
  have := hk.2
  simp only [Java.createFromKey, Java.byteArrayToBigInteger_eq, Java.checkPrivateKey]
  rw [if_neg (by omega)]
  rfl

theorem py_create (hc : c.Certified q gx gy) {w : World c q} (hw : w.Ok) {t : Option Py.HashType}
    {key : Bytes} (h0 : 0 < BN.ofBytes key) (h1 : BN.ofBytes key < c.order) :
    Py.create w.L c (some key) t w.word =
      .ok ⟨c, t.getD .sha512, BN.ofBytes key, BN.inv (BN.ofBytes key) c.order⟩ := by
  have hpos : (0 : Int) < c.order := by exact_mod_cast hc.prime.pos
  cases key with
  | nil => exact absurd h0 (by decide)
  | cons b rest =>
    simp only [Py.create, hw.pyKeys _ h0 h1, if_true, Py.Out.ok_bind]
    rw [BN.modInverse_ok hpos (gcd_order hc (not_dvd h0 h1))]
    rfl

theorem cpp_create (hc : c.Certified q gx gy) (w : World c q) {t : Hash}
    {key : Bytes} (h0 : 0 < BN.ofBytes key) (h1 : BN.ofBytes key < c.order) :
    ∃ k, EcCipher.createFromKey (.ok (w.group gx gy)) key t.cpp = .ok k ∧
      EcCipher.Good (w.group gx gy) t.cpp k ∧ k.privateKey = BN.ofBytes key := by
  obtain ⟨k, hk, hg, hkey⟩ := EcCipher.make_good (group_lawful hc w) (k := BN.ofBytes key)
    (t := t.cpp) (by omega) h1
  refine ⟨k, ?_, hg, hkey⟩
  have hv : EcCipher.validateHashType t.cpp = true := by cases t <;> rfl
  have h2 : ¬ (0 ≥ BN.ofBytes key ∨ BN.ofBytes key ≥ ((w.group gx gy).order : Int)) := by
    have : ((w.group gx gy).order : Int) = c.order := rfl
    omega
  simp only [EcCipher.createFromKey, Res.ok_bind, hv, EcGroup.checkPrivateKey, if_neg h2]
  exact hk

/-- **C112, keys**.  Any bytes: the C++ package takes them as a key exactly when the number
is positive and below the order, the Java package when it is also not 1; each refuses with
its documented error.  A key that both take is taken by Python too, and all three export
the same bytes: the number without leading zero bytes. -/
theorem C112_keys (hc : c.Certified q gx gy) {w : World c q} (hw : w.Ok) (t : Hash)
    (key : Bytes) :
    (0 < BN.ofBytes key ∧ BN.ofBytes key < c.order →
      (∃ k, EcCipher.createFromKey (.ok (w.group gx gy)) key t.cpp = .ok k ∧
        k.getPrivateKeyBytes = .ok (BN.natToBytes (BN.ofBytes key).toNat)) ∧
      (∃ k, Py.create w.L c (some key) (some t.py) w.word = .ok k ∧
        Py.privKeyBytes k = BN.natToBytes (BN.ofBytes key).toNat)) ∧
    (¬ (0 < BN.ofBytes key ∧ BN.ofBytes key < c.order) →
      EcCipher.createFromKey (.ok (w.group gx gy)) key t.cpp = .err .invalidArgument) ∧
    (ValidKey c key → ∃ k, Java.createFromKey c t.java key = .ok k ∧
        Java.getPrivateKeyBytes k = .ok (BN.natToBytes (BN.ofBytes key).toNat)) ∧
    (¬ ValidKey c key → Java.createFromKey c t.java key = .throws .illegalArgument) := by
  refine ⟨fun ⟨h0, h1⟩ => ⟨?_, ?_⟩, fun h => ?_, fun h => ?_, fun h => ?_⟩
  · obtain ⟨k, h2, -, h3⟩ := cpp_create hc w (t := t) h0 h1
    exact ⟨k, h2, by rw [EcCipher.getPrivateKeyBytes, h3, BN.toBytes_of_nonneg (by omega)]⟩
  · refine ⟨_, py_create hc hw h0 h1, ?_⟩
    simp only [Py.privKeyBytes]
    rw [show (BN.ofBytes key).natAbs = (BN.ofBytes key).toNat by omega]
  · have hv : EcCipher.validateHashType t.cpp = true := by cases t <;> rfl
    have h2 : 0 ≥ BN.ofBytes key ∨ BN.ofBytes key ≥ ((w.group gx gy).order : Int) := by
      have : ((w.group gx gy).order : Int) = c.order := rfl
      omega
    simp only [EcCipher.createFromKey, Res.ok_bind, hv, EcGroup.checkPrivateKey, if_pos h2]
    rfl
  · have h0 : 0 < BN.ofBytes key := by have := h.1; omega
    exact ⟨_, java_create h, Java.bigIntegerToByteArray_pos h0⟩
  · simp only [ValidKey] at h
    simp only [Java.createFromKey, Java.byteArrayToBigInteger_eq, Java.checkPrivateKey]
    rw [if_pos (by omega)]
    rfl

/-- **C112, new keys in Java**: every key of `createWithNewKey` is at least 1 and below the order, and
each of these comes from exactly one of `order - 1` equally likely words. -/
theorem C112_java_new_key (hc : c.Certified q gx gy) (t : Java.HashType) :
    (∀ w, 1 ≤ (Java.createWithNewKey c t w).key ∧ (Java.createWithNewKey c t w).key < c.order ∧
      (Java.createWithNewKey c t w).curve = c ∧ (Java.createWithNewKey c t w).hashType = t) ∧
    ∀ k : Int, 1 ≤ k → k < c.order →
      ∃! w : Nat, w < c.order - 1 ∧ (Java.createWithNewKey c t w).key = k := by
  have h2 := hc.prime.two_le
  refine ⟨fun w => ⟨?_, ?_, rfl, rfl⟩, fun k h0 h1 => ⟨(k - 1).toNat, ⟨?_, ?_⟩, ?_⟩⟩
  · simp only [Java.createWithNewKey]
    omega
  · have := Nat.mod_lt w (show 0 < c.order - 1 by omega)
    simp only [Java.createWithNewKey]
    omega
  · omega
  · simp only [Java.createWithNewKey]
    rw [Nat.mod_eq_of_lt (by omega)]
    omega
  · rintro w ⟨hw, he⟩
    simp only [Java.createWithNewKey] at he
    rw [Nat.mod_eq_of_lt hw] at he
    omega

/-- **C112 fails for the key 1**: the C++ package and Python take it, Java refuses it, and
so Java refuses a key that its own `createWithNewKey` can generate and export. -/
theorem C112_key_one_fails (hc : c.Certified q gx gy) {w : World c q} (hw : w.Ok) (t : Hash) :
    (∃ k, EcCipher.createFromKey (.ok (w.group gx gy)) [1] t.cpp = .ok k) ∧
    (∃ k, Py.create w.L c (some [1]) (some t.py) w.word = .ok k) ∧
    Java.createFromKey c t.java [1] = .throws .illegalArgument ∧
    Java.getPrivateKeyBytes (Java.createWithNewKey c t.java 0) = .ok [1] := by
  have h1 : BN.ofBytes [1] = 1 := by decide
  have h2 : (1 : Int) < c.order := by exact_mod_cast hc.prime.one_lt
  obtain ⟨h3, -, -, h4⟩ := C112_keys hc hw t [1]
  obtain ⟨⟨k, hk, -⟩, ⟨k', hk', -⟩⟩ := h3 (by rw [h1]; exact ⟨by omega, h2⟩)
  refine ⟨⟨k, hk⟩, ⟨k', hk'⟩, h4 (by rw [ValidKey, h1]; omega), ?_⟩
  have : (Java.createWithNewKey c t.java 0).key = 1 := by simp [Java.createWithNewKey]
  rw [Java.getPrivateKeyBytes, this]
  decide

/-- **C112 fails for empty key bytes**: the other two packages refuse them; Python silently
makes a cipher with a random key, as if no key had been given. -/
theorem C112_empty_key_fails (hc : c.Certified q gx gy) (w : World c q) (t : Hash) :
    EcCipher.createFromKey (.ok (w.group gx gy)) [] t.cpp = .err .invalidArgument ∧
    Java.createFromKey c t.java [] = .throws .illegalArgument ∧
    ∀ word, Py.create w.L c (some []) (some t.py) word = Py.create w.L c none (some t.py) word ∧
      ∃ k, Py.create w.L c (some []) (some t.py) word = .ok k ∧
        k.privKey = (word % (c.order - 1) + 1 : Nat) := by
  have hpos : (0 : Int) < c.order := by exact_mod_cast hc.prime.pos
  have h2 := hc.prime.two_le
  refine ⟨?_, rfl, fun word => ⟨rfl, ?_⟩⟩
  · cases t <;> rfl
  · have hlt := Nat.mod_lt word (show 0 < c.order - 1 by omega)
    have hk := gcd_order hc (c := c) (k := ((word % (c.order - 1) + 1 : Nat) : Int))
      (not_dvd (by positivity) (by push_cast; omega))
    refine ⟨⟨c, t.py, _, BN.inv ((word % (c.order - 1) + 1 : Nat) : Int) c.order⟩, ?_, rfl⟩
    simp only [Py.create, Py.Out.ok_bind]
    rw [BN.modInverse_ok hpos hk]
    rfl

/-! ### Re-encryption and decryption -/

theorem toPoint_of_oct2point (hc : c.Certified q gx gy) {bs : Bytes} {P : RawPoint}
    (h : c.oct2point bs = some P) :
    ∃ Q, c.toPoint? q P = some Q ∧ Q ≠ 0 ∧ c.ofPoint Q = P := by
  obtain ⟨x, y, rfl, hon⟩ := oct2point_onCurve h
  obtain ⟨Q, h1, h2, h3⟩ := toPoint_of_onCurve hc.proper hc.smooth hon
  exact ⟨Q, h1, h3, h2⟩

theorem cpp_decode (w : World c q) {bs : Bytes} {P : RawPoint} (h : c.oct2point bs = some P)
    {Q : (c.W q).Point} (hQ : c.toPoint? q P = some Q) (h0 : Q ≠ 0) :
    (w.group gx gy).createECPoint bs = .ok Q := by
  have : (w.group gx gy).oct2point bs = some Q := by
    show (c.oct2point bs).bind (c.toPoint? q) = _
    rw [h]
    exact hQ
  simp only [EcGroup.createECPoint, this, if_neg h0]

theorem cpp_decode_none (w : World c q) {bs : Bytes} (h : c.oct2point bs = none) :
    (w.group gx gy).createECPoint bs = .err .invalidArgument := by
  have : (w.group gx gy).oct2point bs = none := by
    show (c.oct2point bs).bind (c.toPoint? q) = _
    rw [h]
    rfl
  simp only [EcGroup.createECPoint, this]

theorem encode (hc : c.Certified q gx gy) (w : World c q) {Q : (c.W q).Point} (hQ : Q ≠ 0) :
    ∃ bs, c.point2oct (c.ofPoint Q) = some bs ∧ (w.group gx gy).toBytesCompressed Q = .ok bs := by
  obtain ⟨bs, h1, -⟩ := (group_lawful hc w).decode_encode Q hQ
  refine ⟨bs, h1, ?_⟩
  simp only [EcGroup.toBytesCompressed, h1]

/-- What a call with scalar `s` returns on a decoded point, in each package. -/
theorem apply_scalar (hc : c.Certified q gx gy) {w : World c q} (hw : w.Ok) {s : Int}
    (hs : ¬ (c.order : Int) ∣ s) {P : RawPoint} {Q : (c.W q).Point}
    (hQ : c.toPoint? q P = some Q) (h0 : Q ≠ 0) :
    ∃ bs, (w.group gx gy).toBytesCompressed (s • Q) = .ok bs ∧
      Java.getEncoded c (w.bcMul s P) = bs ∧ Py.getAsBytes w.L c (w.L.mul s P) = bs := by
  obtain ⟨bs, h1, h2⟩ := encode hc w ((group_lawful hc w).zsmul_ne (k := s) hs h0)
  refine ⟨bs, h2, ?_, ?_⟩
  · rw [hw.bcMul, mulRaw_of hQ, Java.getEncoded, h1]; rfl
  · rw [hw.pyMul, mulRaw_of hQ, Py.getAsBytes, h1]; rfl

/-- The inverse computed by each package acts alike. -/
theorem inv_scalar (hc : c.Certified q gx gy) {k : Int} (h0 : 0 < k) (h1 : k < c.order) :
    ¬ (c.order : Int) ∣ BN.inv k c.order ∧
    BN.inv k c.order * k ≡ 1 [ZMOD c.order] := by
  have hpos : (0 : Int) < c.order := by exact_mod_cast hc.prime.pos
  have hgt : (1 : Int) < c.order := by exact_mod_cast hc.prime.one_lt
  obtain ⟨h2, -, -⟩ := BN.inv_spec hpos (gcd_order hc (not_dvd h0 h1))
  rw [mul_comm] at h2
  refine ⟨fun hd => ?_, h2⟩
  have h3 : (c.order : Int) ∣ 1 := by
    have := Int.emod_emod_of_dvd
    have e := h2.dvd
    have : (c.order : Int) ∣ BN.inv k c.order * k := Dvd.dvd.mul_right hd k
    have := Int.dvd_add e this
    simpa using this
  have := Int.le_of_dvd (by omega) h3
  omega

omit [Fact q.Prime] in
theorem inv_congr {k i j : Int}
    (hi : i * k ≡ 1 [ZMOD c.order]) (hj : j * k ≡ 1 [ZMOD c.order]) : i ≡ j [ZMOD c.order] := by
  have h1 : i * k * j ≡ j [ZMOD c.order] := by simpa using hi.mul_right j
  have h2 : i * (j * k) ≡ i [ZMOD c.order] := by simpa using hj.mul_left i
  refine h2.symm.trans ?_
  rw [show i * (j * k) = i * k * j by ring]
  exact h1

/-- The results of the three packages for one decoded ciphertext. -/
theorem reEncrypt_point (hc : c.Certified q gx gy) {w : World c q} (hw : w.Ok) (t : Hash)
    {key : Bytes} (hk : ValidKey c key) {P : RawPoint} {Q : (c.W q).Point}
    (hQ : c.toPoint? q P = some Q) (h0 : Q ≠ 0) :
    ∃ bs, (∀ ct, c.oct2point ct = some P → w.reEncrypt gx gy .cpp t key ct = some bs) ∧
      (∀ ct, Java.checkPointOnCurve c w.bc ct = .ok P →
        w.reEncrypt gx gy .java t key ct = some bs) ∧
      (∀ ct, Py.fromBytes w.L c ct = .ok P →
        w.reEncrypt gx gy .python t key ct = some bs) ∧
      (w.group gx gy).toBytesCompressed (BN.ofBytes key • Q) = .ok bs := by
  have hk0 : 0 < BN.ofBytes key := by have := hk.1; omega
  obtain ⟨bs, h1, h2, h3⟩ := apply_scalar hc hw (not_dvd hk0 hk.2) hQ h0
  refine ⟨bs, fun ct hct => ?_, fun ct hct => ?_, fun ct hct => ?_, h1⟩
  · obtain ⟨k, e1, e2, e3⟩ := cpp_create hc w (t := t) hk0 hk.2
    simp only [World.reEncrypt, e1, Res.ok_bind, e2.reEncrypt_eq (cpp_decode w hct hQ h0), e3, h1,
      cppValue]
  · simp only [World.reEncrypt, java_create hk, Java.Out.ok_bind, Java.reEncrypt, hct, h2,
      Java.Out.pure_eq, javaValue]
  · simp only [World.reEncrypt, py_create hc hw hk0 hk.2, Py.Out.ok_bind, Py.reEncrypt, hct,
      Py.encryptPoint, h3, Py.Out.pure_eq, pyValue]

theorem decrypt_point (hc : c.Certified q gx gy) {w : World c q} (hw : w.Ok) (t : Hash)
    {key : Bytes} (hk : ValidKey c key) {P : RawPoint} {Q : (c.W q).Point}
    (hQ : c.toPoint? q P = some Q) (h0 : Q ≠ 0) :
    ∃ bs, (∀ ct, c.oct2point ct = some P → w.decrypt gx gy .cpp t key ct = some bs) ∧
      (∀ ct, Java.checkPointOnCurve c w.bc ct = .ok P →
        w.decrypt gx gy .java t key ct = some bs) ∧
      (∀ ct, Py.fromBytes w.L c ct = .ok P →
        w.decrypt gx gy .python t key ct = some bs) ∧
      (w.group gx gy).toBytesCompressed (BN.inv (BN.ofBytes key) c.order • Q) = .ok bs := by
  have hk0 : 0 < BN.ofBytes key := by have := hk.1; omega
  have hpos : (0 : Int) < c.order := by exact_mod_cast hc.prime.pos
  obtain ⟨hi, hinv⟩ := inv_scalar hc hk0 hk.2
  obtain ⟨bs, h1, h2, h3⟩ := apply_scalar hc hw hi hQ h0
  refine ⟨bs, fun ct hct => ?_, fun ct hct => ?_, fun ct hct => ?_, h1⟩
  · obtain ⟨k, e1, e2, e3⟩ := cpp_create hc w (t := t) hk0 hk.2
    have hcong : k.privateKeyInverse ≡ BN.inv (BN.ofBytes key) c.order [ZMOD c.order] :=
      inv_congr (k := BN.ofBytes key) (by rw [← e3]; exact e2.inv) hinv
    simp only [World.decrypt, e1, Res.ok_bind, e2.decrypt_eq (cpp_decode w hct hQ h0)]
    rw [(group_lawful hc w).zsmul_congr (a := k.privateKeyInverse) hcong, h1]
    rfl
  · simp only [World.decrypt, java_create hk, Java.Out.ok_bind, Java.decrypt, hct,
      BN.modInverse_ok hpos (gcd_order hc (not_dvd hk0 hk.2)), h2,
      Java.Out.pure_eq, javaValue]
  · simp only [World.decrypt, py_create hc hw hk0 hk.2, Py.Out.ok_bind, Py.decrypt, hct,
      h3, Py.Out.pure_eq, pyValue]

/-- How the result of a package on one ciphertext compares with that of the C++ package:
the same bytes whenever C++ succeeds; and if the package succeeds, C++ does so with the
same bytes, on the ciphertext itself or (for a hybrid encoding, first byte 6 or 7, which
C++ refuses) on its uncompressed form. -/
def Agrees (cpp other : Bytes → Option Bytes) (ct : Bytes) : Prop :=
  (∀ bs, cpp ct = some bs → other ct = some bs) ∧
  ∀ bs, other ct = some bs → cpp ct = some bs ∨
    ∃ t rest, ct = t :: rest ∧ (t = 6 ∨ t = 7) ∧ cpp ct = none ∧ cpp (4 :: rest) = some bs

theorem reEncrypt_cpp_none (hc : c.Certified q gx gy) (w : World c q) (t : Hash)
    {key : Bytes} (hk : ValidKey c key) {ct : Bytes} (h : c.oct2point ct = none) :
    w.reEncrypt gx gy .cpp t key ct = none := by
  have hk0 : 0 < BN.ofBytes key := by have := hk.1; omega
  obtain ⟨k, e1, e2, -⟩ := cpp_create hc w (t := t) hk0 hk.2
  simp only [World.reEncrypt, e1, Res.ok_bind, EcCipher.reEncrypt, e2.group, cpp_decode_none w h]
  rfl

theorem decrypt_cpp_none (hc : c.Certified q gx gy) (w : World c q) (t : Hash)
    {key : Bytes} (hk : ValidKey c key) {ct : Bytes} (h : c.oct2point ct = none) :
    w.decrypt gx gy .cpp t key ct = none := by
  have hk0 : 0 < BN.ofBytes key := by have := hk.1; omega
  obtain ⟨k, e1, e2, -⟩ := cpp_create hc w (t := t) hk0 hk.2
  simp only [World.decrypt, e1, Res.ok_bind, EcCipher.decrypt, e2.group, cpp_decode_none w h]
  rfl

/-- **C112, re-encryption and decryption**.  For every key that all packages take and every
string of bytes, Java and Python return what C++ returns; they accept nothing more than the
hybrid encodings of points. -/
theorem C112_reencrypt_decrypt (hc : c.Certified q gx gy) {w : World c q} (hw : w.Ok) (t : Hash)
    {key : Bytes} (hk : ValidKey c key) (l : Lang) (ct : Bytes) :
    Agrees (w.reEncrypt gx gy .cpp t key) (w.reEncrypt gx gy l t key) ct ∧
    Agrees (w.decrypt gx gy .cpp t key) (w.decrypt gx gy l t key) ct := by
  have hk0 : 0 < BN.ofBytes key := by have := hk.1; omega
  -- one package with its decoder
  have gen : ∀ (cppF otherF : Bytes → Option Bytes) (dec : Bytes → Option RawPoint),
      (∀ P Q, c.toPoint? q P = some Q → Q ≠ 0 → ∃ bs,
        (∀ ct, c.oct2point ct = some P → cppF ct = some bs) ∧
        (∀ ct, dec ct = some P → otherF ct = some bs)) →
      (∀ ct, c.oct2point ct = none → cppF ct = none) →
      (dec ct = none → otherF ct = none) →
      ((∃ P, c.oct2point ct = some P ∧ dec ct = some P) ∨
        (c.oct2point ct = none ∧ ((∃ P, Hybrid c ct P ∧ dec ct = some P) ∨ dec ct = none))) →
      Agrees cppF otherF ct := by
    intro cppF otherF dec hpt hnone hdn hcases
    rcases hcases with ⟨P, h1, h2⟩ | ⟨h1, ⟨P, ⟨t', rest, rfl, h67, h3⟩, h2⟩ | h2⟩
    · obtain ⟨Q, hQ, hQ0, -⟩ := toPoint_of_oct2point hc h1
      obtain ⟨bs, e1, e2⟩ := hpt P Q hQ hQ0
      refine ⟨fun b hb => ?_, fun b hb => Or.inl ?_⟩
      · rw [e2 _ h2, ← e1 _ h1, hb]
      · rw [e1 _ h1, ← e2 _ h2, hb]
    · obtain ⟨Q, hQ, hQ0, -⟩ := toPoint_of_oct2point hc h3
      obtain ⟨bs, e1, e2⟩ := hpt P Q hQ hQ0
      refine ⟨fun b hb => ?_, fun b hb => Or.inr ⟨t', rest, rfl, h67, hnone _ h1, ?_⟩⟩
      · rw [hnone _ h1] at hb; cases hb
      · rw [e1 _ h3, ← e2 _ h2, hb]
    · refine ⟨fun b hb => ?_, fun b hb => ?_⟩
      · rw [hnone _ h1] at hb; cases hb
      · rw [hdn h2] at hb; cases hb
  have hj : ∀ ct, (∃ P, c.oct2point ct = some P ∧
        javaValue (Java.checkPointOnCurve c w.bc ct) = some P) ∨
      (c.oct2point ct = none ∧ ((∃ P, Hybrid c ct P ∧
        javaValue (Java.checkPointOnCurve c w.bc ct) = some P) ∨
        javaValue (Java.checkPointOnCurve c w.bc ct) = none)) := by
    intro ct
    rcases java_decode hc hw.bc ct with ⟨P, h1, h2⟩ | ⟨h1, ⟨P, h3, h2⟩ | h2 | ⟨-, h2⟩⟩
    · exact Or.inl ⟨P, h1, by rw [h2]; rfl⟩
    · exact Or.inr ⟨h1, Or.inl ⟨P, h3, by rw [h2]; rfl⟩⟩
    · exact Or.inr ⟨h1, Or.inr (by rw [h2]; rfl)⟩
    · exact Or.inr ⟨h1, Or.inr (by rw [h2]; rfl)⟩
  have hp : ∀ ct, (∃ P, c.oct2point ct = some P ∧ pyValue (Py.fromBytes w.L c ct) = some P) ∨
      (c.oct2point ct = none ∧ ((∃ P, Hybrid c ct P ∧ pyValue (Py.fromBytes w.L c ct) = some P) ∨
        pyValue (Py.fromBytes w.L c ct) = none)) := by
    intro ct
    rcases py_decode hw.pyDecode ct with ⟨P, h1, h2⟩ | ⟨h1, ⟨P, h3, h2⟩ | h2 | ⟨-, h2⟩⟩
    · exact Or.inl ⟨P, h1, by rw [h2]; rfl⟩
    · exact Or.inr ⟨h1, Or.inl ⟨P, h3, by rw [h2]; rfl⟩⟩
    · exact Or.inr ⟨h1, Or.inr (by rw [h2]; rfl)⟩
    · exact Or.inr ⟨h1, Or.inr (by rw [h2]; rfl)⟩
  have jv : ∀ {x : Java.Out RawPoint} {P}, javaValue x = some P → x = .ok P := by
    intro x P h
    cases x with
    | ok a => simp only [javaValue, Option.some.injEq] at h; rw [h]
    | throws e => cases h
  have pv : ∀ {x : Py.Out RawPoint} {P}, pyValue x = some P → x = .ok P := by
    intro x P h
    cases x with
    | ok a => simp only [pyValue, Option.some.injEq] at h; rw [h]
    | raises e => cases h
  cases l with
  | cpp => exact ⟨⟨fun _ h => h, fun _ h => Or.inl h⟩, ⟨fun _ h => h, fun _ h => Or.inl h⟩⟩
  | java =>
    constructor
    · refine gen _ _ (fun ct => javaValue (Java.checkPointOnCurve c w.bc ct))
        (fun P Q hQ h0 => ?_) (fun ct h => reEncrypt_cpp_none hc w t hk h) ?_ (hj ct)
      · obtain ⟨bs, e1, e2, -, -⟩ := reEncrypt_point hc hw t hk hQ h0
        exact ⟨bs, e1, fun ct h => e2 ct (jv h)⟩
      · intro h
        cases hx : Java.checkPointOnCurve c w.bc ct with
        | ok a => rw [hx] at h; cases h
        | throws e => simp only [World.reEncrypt, java_create hk, Java.Out.ok_bind, Java.reEncrypt,
            hx, Java.Out.throws_bind, javaValue]
    · refine gen _ _ (fun ct => javaValue (Java.checkPointOnCurve c w.bc ct))
        (fun P Q hQ h0 => ?_) (fun ct h => decrypt_cpp_none hc w t hk h) ?_ (hj ct)
      · obtain ⟨bs, e1, e2, -, -⟩ := decrypt_point hc hw t hk hQ h0
        exact ⟨bs, e1, fun ct h => e2 ct (jv h)⟩
      · intro h
        cases hx : Java.checkPointOnCurve c w.bc ct with
        | ok a => rw [hx] at h; cases h
        | throws e => simp only [World.decrypt, java_create hk, Java.Out.ok_bind, Java.decrypt,
            hx, Java.Out.throws_bind, javaValue]
  | python =>
    constructor
    · refine gen _ _ (fun ct => pyValue (Py.fromBytes w.L c ct))
        (fun P Q hQ h0 => ?_) (fun ct h => reEncrypt_cpp_none hc w t hk h) ?_ (hp ct)
      · obtain ⟨bs, e1, -, e2, -⟩ := reEncrypt_point hc hw t hk hQ h0
        exact ⟨bs, e1, fun ct h => e2 ct (pv h)⟩
      · intro h
        cases hx : Py.fromBytes w.L c ct with
        | ok a => rw [hx] at h; cases h
        | raises e => simp only [World.reEncrypt, py_create hc hw hk0 hk.2, Py.Out.ok_bind,
            Py.reEncrypt, hx, Py.Out.raises_bind, pyValue]
    · refine gen _ _ (fun ct => pyValue (Py.fromBytes w.L c ct))
        (fun P Q hQ h0 => ?_) (fun ct h => decrypt_cpp_none hc w t hk h) ?_ (hp ct)
      · obtain ⟨bs, e1, -, e2, -⟩ := decrypt_point hc hw t hk hQ h0
        exact ⟨bs, e1, fun ct h => e2 ct (pv h)⟩
      · intro h
        cases hx : Py.fromBytes w.L c ct with
        | ok a => rw [hx] at h; cases h
        | raises e => simp only [World.decrypt, py_create hc hw hk0 hk.2, Py.Out.ok_bind,
            Py.decrypt, hx, Py.Out.raises_bind, pyValue]

/-- **C112, refusals**.  When Java or Python refuse a ciphertext, so does C++, with
INVALID_ARGUMENT.  Java's exception is the documented one except for the empty ciphertext
(an index error); Python's is a `ValueError` only for the byte 0 and an `AssertionError`
otherwise. -/
theorem C112_refusals (hc : c.Certified q gx gy) {w : World c q} (hw : w.Ok) (t : Hash)
    {kc : EcCipher (c.W q).Point} {kj : Java.Cipher} {kp : Py.Cipher} {key : Bytes}
    (h1 : EcCipher.createFromKey (.ok (w.group gx gy)) key t.cpp = .ok kc)
    (h2 : Java.createFromKey c t.java key = .ok kj)
    (h3 : Py.create w.L c (some key) (some t.py) w.word = .ok kp) (ct : Bytes) :
    (∀ e, (Java.reEncrypt w.bc w.bcMul kj ct = .throws e ∨
        Java.decrypt w.bc w.bcMul kj ct = .throws e) →
      kc.reEncrypt ct = .err .invalidArgument ∧ kc.decrypt ct = .err .invalidArgument ∧
      ((ct ≠ [] ∧ e = .illegalArgument) ∨ (ct = [] ∧ e = .arrayIndex))) ∧
    (∀ e, (Py.reEncrypt w.L kp ct = .raises e ∨ Py.decrypt w.L kp ct = .raises e) →
      kc.reEncrypt ct = .err .invalidArgument ∧ kc.decrypt ct = .err .invalidArgument ∧
      (e = .assertionError ∨ (ct = [0] ∧ e = .valueError))) := by
  have hkey : ValidKey c key := by
    by_contra hn
    rw [(C112_keys hc hw t key).2.2.2 hn] at h2
    cases h2
  have hk0 : 0 < BN.ofBytes key := by have := hkey.1; omega
  have hpos : (0 : Int) < c.order := by exact_mod_cast hc.prime.pos
  obtain ⟨k, e1, e2, -⟩ := cpp_create hc w (t := t) hk0 hkey.2
  rw [h1] at e1
  injection e1 with e1
  subst e1
  rw [java_create hkey] at h2
  injection h2 with h2
  subst h2
  rw [py_create hc hw hk0 hkey.2] at h3
  injection h3 with h3
  subst h3
  have hcpp : c.oct2point ct = none →
      kc.reEncrypt ct = .err .invalidArgument ∧ kc.decrypt ct = .err .invalidArgument := by
    intro h
    constructor
    · simp only [EcCipher.reEncrypt, e2.group, cpp_decode_none w h]; rfl
    · simp only [EcCipher.decrypt, e2.group, cpp_decode_none w h]; rfl
  constructor
  · intro e he
    have hinv := BN.modInverse_ok hpos (gcd_order hc (not_dvd hk0 hkey.2))
    rcases java_decode hc hw.bc ct with ⟨P, d1, d2⟩ | ⟨d1, ⟨P, d3, d2⟩ | d2 | ⟨d3, d2⟩⟩
    · simp [Java.reEncrypt, Java.decrypt, d2, hinv] at he
    · simp [Java.reEncrypt, Java.decrypt, d2, hinv] at he
    · refine ⟨(hcpp d1).1, (hcpp d1).2, Or.inl ?_⟩
      have hne : ct ≠ [] := by
        rintro rfl
        have : Java.checkPointOnCurve c w.bc [] = .throws .arrayIndex := rfl
        rw [this] at d2
        cases d2
      simp [Java.reEncrypt, Java.decrypt, d2] at he
      exact ⟨hne, he.symm⟩
    · refine ⟨(hcpp d1).1, (hcpp d1).2, Or.inr ?_⟩
      simp [Java.reEncrypt, Java.decrypt, d2] at he
      exact ⟨d3, he.symm⟩
  · intro e he
    rcases py_decode hw.pyDecode ct with ⟨P, d1, d2⟩ | ⟨d1, ⟨P, d3, d2⟩ | d2 | ⟨d3, d2⟩⟩
    · simp [Py.reEncrypt, Py.decrypt, d2] at he
    · simp [Py.reEncrypt, Py.decrypt, d2] at he
    · refine ⟨(hcpp d1).1, (hcpp d1).2, Or.inl ?_⟩
      simp [Py.reEncrypt, Py.decrypt, d2] at he
      exact he.symm
    · refine ⟨(hcpp d1).1, (hcpp d1).2, Or.inr ⟨d3, ?_⟩⟩
      simp [Py.reEncrypt, Py.decrypt, d2] at he
      exact he.symm

/-! ### Encryption, and mixing the packages -/

theorem group_hash (w : World c q) (t : Hash) {k : EcCipher (c.W q).Point}
    (hk : EcCipher.Good (w.group gx gy) t.cpp k) (m : Bytes) :
    k.hashToTheCurveInternal m = c.liftHash q (cppHash c w.H t w.sqrt w.fuel m) := by
  cases t <;> simp only [EcCipher.hashToTheCurveInternal, hk.hashType, hk.group] <;> rfl

/-- What the three packages make of a string for which the search for a point stops, and of
one for which it does not. -/
theorem encrypt_cases (hc : c.Certified q gx gy) (hbits : BN.bitLength c.p ≤ 4096)
    {w : World c q} (hw : w.Ok) (t : Hash) (m : Bytes)
    (h0 : (∃ y, IsPoint c.p c.a c.b 0 y) ∨ ∀ k, k < w.fuel → tried w.H t c.p m k ≠ .ok 0) :
    (cppHash c w.H t w.sqrt w.fuel m = none ∧
      ∀ l key, ValidKey c key → w.encrypt gx gy l t key m = none) ∨
    (∃ Q : (c.W q).Point, Q ≠ 0 ∧ cppHash c w.H t w.sqrt w.fuel m = some (.ok (c.ofPoint Q)) ∧
      ∀ key, ValidKey c key → ∃ bs,
        (w.group gx gy).toBytesCompressed (BN.ofBytes key • Q) = .ok bs ∧
        ∀ l, w.encrypt gx gy l t key m = some bs) := by
  have hno : ∀ x, ¬ IsPoint c.p c.a c.b x 0 := by
    intro x hx
    obtain ⟨-, -, -, -, hd⟩ := hx
    apply hc.no_root (x : ZMod q)
    rw [hc.proper.hp, ← ZMod.intCast_zmod_eq_zero_iff_dvd] at hd
    push_cast at hd
    linear_combination -hd
  rcases C110_same_point hc.proper hbits hw.sqrt hw.bc w.L hw.pySqrt w.H hw.sha t w.fuel m hno h0
    with ⟨P, h1, h2, h3⟩ | ⟨h1, h2, h3⟩
  · right
    obtain ⟨x, y, rfl, hp, -⟩ := C27_hash_valid hc.proper hw.sqrt w.H w.fuel m P
      (by cases t
          · exact Or.inl h1
          · exact Or.inr (Or.inl h1)
          · exact Or.inr (Or.inr h1))
    obtain ⟨Q, e1, e2, e3⟩ := toPoint_of_onCurve hc.proper hc.smooth ((isPoint_iff _ _ _).2 hp)
    refine ⟨Q, e3, by rw [h1, e2], fun key hk => ?_⟩
    have hk0 : 0 < BN.ofBytes key := by have := hk.1; omega
    obtain ⟨bs, b1, b2, b3⟩ := apply_scalar hc hw (not_dvd hk0 hk.2) e1 e3
    refine ⟨bs, b1, fun l => ?_⟩
    cases l with
    | cpp =>
      obtain ⟨k, g1, g2, g3⟩ := cpp_create hc w (t := t) hk0 hk.2
      have hh : k.hashToTheCurveInternal m = .ok Q := by
        rw [group_hash w t g2, h1]
        simp only [liftHash, e1]
      simp only [World.encrypt, g1, Res.ok_bind, g2.encrypt_eq hh, g3, b1, cppValue]
    | java =>
      simp [World.encrypt, java_create hk, javaValue, Java.encrypt, h2, b2]
    | python =>
      simp [World.encrypt, py_create hc hw hk0 hk.2, pyValue, Py.encrypt, h3, Py.encryptPoint, b3]
  · left
    refine ⟨h1, fun l key hk => ?_⟩
    have hk0 : 0 < BN.ofBytes key := by have := hk.1; omega
    cases l with
    | cpp =>
      obtain ⟨k, g1, g2, g3⟩ := cpp_create hc w (t := t) hk0 hk.2
      have hh : k.hashToTheCurveInternal m = .err .unknown := by
        rw [group_hash w t g2, h1]
        rfl
      simp only [World.encrypt, g1, Res.ok_bind, EcCipher.encrypt, hh]
      rfl
    | java => simp [World.encrypt, java_create hk, javaValue, Java.encrypt, h2]
    | python => simp [World.encrypt, py_create hc hw hk0 hk.2, pyValue, Py.encrypt, h3]

/-- The curves that all three packages offer. -/
def Shared (c : Curve) (q : Nat) (gx gy : Int) : Prop :=
  (c = p256 ∧ q = q256 ∧ gx = p256Gx ∧ gy = p256Gy) ∨
  (c = p384 ∧ q = q384 ∧ gx = p384Gx ∧ gy = p384Gy)

omit [Fact q.Prime] in
theorem Shared.facts (h : Shared c q gx gy) :
    c.Certified q gx gy ∧ BN.bitLength c.p ≤ 4096 ∧ ∃ y, IsPoint c.p c.a c.b 0 y := by
  rcases h with ⟨rfl, rfl, rfl, rfl⟩ | ⟨rfl, rfl, rfl, rfl⟩
  · exact ⟨p256_certified, by decide +kernel, _, p256_zero⟩
  · exact ⟨p384_certified, by decide +kernel, _, p384_zero⟩

/-- **C112, encryption**.  On P-256 and P-384, for every key that all packages take, every
string and hash type: the three packages return the same ciphertext, or the search for a
point has not stopped and none has returned. -/
theorem C112_encrypt (hs : Shared c q gx gy) {w : World c q} (hw : w.Ok) (t : Hash)
    {key : Bytes} (hk : ValidKey c key) (m : Bytes) :
    (∃ bs, ∀ l, w.encrypt gx gy l t key m = some bs) ∨
    (cppHash c w.H t w.sqrt w.fuel m = none ∧ ∀ l, w.encrypt gx gy l t key m = none) := by
  obtain ⟨hc, hbits, h0⟩ := hs.facts
  rcases encrypt_cases hc hbits hw t m (Or.inl h0) with ⟨h1, h2⟩ | ⟨Q, -, -, h2⟩
  · exact Or.inr ⟨h1, fun l => h2 l key hk⟩
  · obtain ⟨bs, -, h3⟩ := h2 key hk
    exact Or.inl ⟨bs, h3⟩

/-- **C112, without a hash type**.  A Java cipher made without a hash type gives the ciphertexts of a
C++ cipher with SHA-256, a Python cipher made without one those of a C++ cipher with SHA-512. -/
theorem C112_defaults (hs : Shared c q gx gy) {w : World c q} (hw : w.Ok) {key : Bytes}
    (hk : ValidKey c key) (m : Bytes) :
    (∃ k, Java.createFromKeyDefault c key = .ok k ∧
      (Java.encrypt w.H w.bc w.bcMul w.fuel k m).bind javaValue =
        w.encrypt gx gy .cpp .sha256 key m) ∧
    (∃ k, Py.create w.L c (some key) none w.word = .ok k ∧
      (Py.encrypt w.L w.H w.fuel k m).bind pyValue = w.encrypt gx gy .cpp .sha512 key m) := by
  have hk0 : 0 < BN.ofBytes key := by have := hk.1; omega
  have same : ∀ t l, w.encrypt gx gy .cpp t key m = w.encrypt gx gy l t key m := by
    intro t l
    rcases C112_encrypt hs hw t hk m with ⟨bs, h⟩ | ⟨-, h⟩
    · rw [h, h]
    · rw [h, h]
  refine ⟨⟨_, java_create (t := .sha256) hk, ?_⟩, ⟨_, py_create hs.facts.1 hw hk0 hk.2, ?_⟩⟩
  · rw [same .sha256 .java]
    simp only [World.encrypt, java_create hk, javaValue, Option.bind_eq_bind, Option.bind_some]
    rfl
  · rw [same .sha512 .python]
    simp only [World.encrypt, py_create hs.facts.1 hw hk0 hk.2, pyValue, Option.bind_eq_bind,
      Option.bind_some]
    rfl

/-- **C112, validation**.  Java's `validateCiphertext` answers true for exactly the bytes that
`reEncrypt` takes, and false exactly where it throws IllegalArgumentException; the one other
exception is that of both for the empty array. -/
theorem C112_validate (sqrt : Int → Option Int) (mul : Int → RawPoint → RawPoint)
    (k : Java.Cipher) (ct : Bytes) :
    (Java.validateCiphertext k.curve sqrt ct = .ok true ↔
      ∃ bs, Java.reEncrypt sqrt mul k ct = .ok bs) ∧
    (Java.validateCiphertext k.curve sqrt ct = .ok false ↔
      Java.reEncrypt sqrt mul k ct = .throws .illegalArgument) ∧
    (∀ e, Java.validateCiphertext k.curve sqrt ct = .throws e ↔
      e ≠ .illegalArgument ∧ Java.reEncrypt sqrt mul k ct = .throws e) := by
  simp only [Java.validateCiphertext, Java.reEncrypt, Java.checkPointOnCurve]
  cases hd : Java.decodePoint k.curve sqrt ct with
  | ok P =>
    cases h1 : k.curve.isOnCurve P <;> cases h2 : Curve.isAtInfinity P <;> simp [h1, h2]
    all_goals (intro e he h; exact he h.symm)
  | throws e =>
    cases e <;> simp
    all_goals (intro e; cases e <;> simp)

theorem toPoint_inv (hc : c.Certified q gx gy) (w : World c q) {Q : (c.W q).Point} (hQ : Q ≠ 0)
    {bs : Bytes} (h : (w.group gx gy).toBytesCompressed Q = .ok bs) :
    c.oct2point bs = some (c.ofPoint Q) := by
  cases hd : c.oct2point bs with
  | none =>
    have := ((group_lawful hc w).toBytes_ok h).2
    rw [cpp_decode_none w hd] at this
    cases this
  | some P =>
    obtain ⟨Q', h1, h2, h3⟩ := toPoint_of_oct2point hc hd
    have e := ((group_lawful hc w).toBytes_ok h).2
    rw [cpp_decode w hd h1 h2] at e
    injection e with e
    rw [← e, h3]

/-- Any package, applied to an encoding of a point. -/
theorem reEncrypt_any (hc : c.Certified q gx gy) {w : World c q} (hw : w.Ok) (t : Hash)
    {key : Bytes} (hk : ValidKey c key) {Q : (c.W q).Point} (hQ : Q ≠ 0) {ct : Bytes}
    (h : (w.group gx gy).toBytesCompressed Q = .ok ct) :
    ∃ bs, (w.group gx gy).toBytesCompressed (BN.ofBytes key • Q) = .ok bs ∧
      ∀ l, w.reEncrypt gx gy l t key ct = some bs := by
  have hd := toPoint_inv hc w hQ h
  obtain ⟨bs, h1, -, -, h4⟩ := reEncrypt_point hc hw t hk (c.toPoint_ofPoint Q) hQ
  exact ⟨bs, h4, fun l => (C112_reencrypt_decrypt hc hw t hk l ct).1.1 bs (h1 ct hd)⟩

theorem decrypt_any (hc : c.Certified q gx gy) {w : World c q} (hw : w.Ok) (t : Hash)
    {key : Bytes} (hk : ValidKey c key) {Q : (c.W q).Point} (hQ : Q ≠ 0) {ct : Bytes}
    (h : (w.group gx gy).toBytesCompressed Q = .ok ct) :
    ∃ bs, (w.group gx gy).toBytesCompressed (BN.inv (BN.ofBytes key) c.order • Q) = .ok bs ∧
      ∀ l, w.decrypt gx gy l t key ct = some bs := by
  have hd := toPoint_inv hc w hQ h
  obtain ⟨bs, h1, -, -, h4⟩ := decrypt_point hc hw t hk (c.toPoint_ofPoint Q) hQ
  exact ⟨bs, h4, fun l => (C112_reencrypt_decrypt hc hw t hk l ct).2.1 bs (h1 ct hd)⟩

/-- **C112, mixed use**.  On P-256 and P-384, for any two keys and any string for which the
search for a point stops: encrypting under one key with one package and then under the
other with another gives the same bytes whichever packages are used and whichever key
comes first; and decrypting with one of the keys, in any package, leaves exactly the
encryption under the other. -/
theorem C112_mixed (hs : Shared c q gx gy) {w : World c q} (hw : w.Ok) (t : Hash)
    {k₁ k₂ : Bytes} (hk₁ : ValidKey c k₁) (hk₂ : ValidKey c k₂) (m : Bytes)
    (hm : cppHash c w.H t w.sqrt w.fuel m ≠ none) :
    ∃ e₁ e₂ d, (∀ l, w.encrypt gx gy l t k₁ m = some e₁) ∧
      (∀ l, w.encrypt gx gy l t k₂ m = some e₂) ∧
      (∀ l, w.reEncrypt gx gy l t k₂ e₁ = some d) ∧ (∀ l, w.reEncrypt gx gy l t k₁ e₂ = some d) ∧
      (∀ l, w.decrypt gx gy l t k₁ d = some e₂) ∧ (∀ l, w.decrypt gx gy l t k₂ d = some e₁) := by
  obtain ⟨hc, hbits, h0⟩ := hs.facts
  have hE := group_lawful hc w
  rcases encrypt_cases hc hbits hw t m (Or.inl h0) with ⟨h1, -⟩ | ⟨Q, hQ, -, h2⟩
  · exact absurd h1 hm
  have hp₁ : 0 < BN.ofBytes k₁ := by have := hk₁.1; omega
  have hp₂ : 0 < BN.ofBytes k₂ := by have := hk₂.1; omega
  obtain ⟨e₁, a1, b1⟩ := h2 k₁ hk₁
  obtain ⟨e₂, a2, b2⟩ := h2 k₂ hk₂
  have n1 := hE.zsmul_ne (k := BN.ofBytes k₁) (not_dvd hp₁ hk₁.2) hQ
  have n2 := hE.zsmul_ne (k := BN.ofBytes k₂) (not_dvd hp₂ hk₂.2) hQ
  obtain ⟨d, a3, b3⟩ := reEncrypt_any hc hw t hk₂ n1 a1
  obtain ⟨d', a4, b4⟩ := reEncrypt_any hc hw t hk₁ n2 a2
  have hcomm : BN.ofBytes k₂ • BN.ofBytes k₁ • Q = BN.ofBytes k₁ • BN.ofBytes k₂ • Q :=
    smul_comm _ _ _
  have hd : d' = d := by
    rw [← hcomm, a3] at a4
    injection a4 with a4
    exact a4.symm
  subst hd
  have n3 := hE.zsmul_ne (k := BN.ofBytes k₂) (not_dvd hp₂ hk₂.2) n1
  have hinv : ∀ (k : Int) (P : (c.W q).Point), 0 < k → k < c.order →
      BN.inv k c.order • k • P = P := by
    intro k P h1 h2
    rw [← mul_zsmul', mul_comm]
    rw [hE.zsmul_congr (b := 1) (inv_scalar hc h1 h2).2, one_zsmul]
  obtain ⟨x₂, a5, b5⟩ := decrypt_any hc hw t hk₂ n3 a3
  obtain ⟨x₁, a6, b6⟩ := decrypt_any hc hw t hk₁ n3 a3
  rw [hinv _ _ hp₂ hk₂.2, a1] at a5
  rw [hcomm, hinv _ _ hp₁ hk₁.2, a2] at a6
  injection a5 with a5
  injection a6 with a6
  subst a5 a6
  exact ⟨_, _, _, b1, b2, b3, b4, b6, b5⟩

/-! ### Python -/

/-- **C112, keys above the order in Python**.  When the library takes numbers above the order
(as OpenSSL does), Python's cipher for such a key acts on every ciphertext like the one for
its residue, while C++ and Java refuse it; the exported key bytes differ. -/
theorem C112_python_large_key_fails (hc : c.Certified q gx gy) {w : World c q} (hw : w.Ok)
    (t : Hash) (hany : ∀ k, w.L.acceptsKey k = true) {key big : Bytes} (hk : ValidKey c key)
    (hb : BN.ofBytes big = BN.ofBytes key + c.order) (ct : Bytes) :
    w.reEncrypt gx gy .python t big ct = w.reEncrypt gx gy .python t key ct ∧
    w.decrypt gx gy .python t big ct = w.decrypt gx gy .python t key ct ∧
    (∀ k k', Py.create w.L c (some big) (some t.py) w.word = .ok k →
      Py.create w.L c (some key) (some t.py) w.word = .ok k' →
      Py.privKeyBytes k ≠ Py.privKeyBytes k') ∧
    EcCipher.createFromKey (.ok (w.group gx gy)) big t.cpp = .err .invalidArgument ∧
    Java.createFromKey c t.java big = .throws .illegalArgument := by
  have hk0 : 0 < BN.ofBytes key := by have := hk.1; omega
  have hE := group_lawful hc w
  have hpos : (0 : Int) < c.order := by exact_mod_cast hc.prime.pos
  have hndv : ¬ (c.order : Int) ∣ BN.ofBytes big := by
    rw [hb]
    intro h
    exact not_dvd hk0 hk.2 ((Int.dvd_add_left (dvd_refl _)).1 h)
  have hcr : Py.create w.L c (some big) (some t.py) w.word =
      .ok ⟨c, t.py, BN.ofBytes big, BN.inv (BN.ofBytes big) c.order⟩ := by
    cases big with
    | nil => exact absurd hb (by have : BN.ofBytes [] = 0 := by decide
                                 omega)
    | cons b rest =>
      simp only [Py.create, hany, if_true, Py.Out.ok_bind]
      rw [BN.modInverse_ok hpos (gcd_order hc hndv)]
      rfl
  have hcong : BN.ofBytes big ≡ BN.ofBytes key [ZMOD c.order] := by
    rw [hb]
    simp [Int.ModEq]
  have hicong : BN.inv (BN.ofBytes big) c.order ≡ BN.inv (BN.ofBytes key) c.order [ZMOD c.order] := by
    have h1 : BN.inv (BN.ofBytes big) c.order * BN.ofBytes big ≡ 1 [ZMOD c.order] := by
      rw [mul_comm]
      exact (BN.inv_spec hpos (gcd_order hc hndv)).1
    exact inv_congr (k := BN.ofBytes key) ((hcong.mul_left _).symm.trans h1)
      (inv_scalar hc hk0 hk.2).2
  have hdec : ∀ P, Py.fromBytes w.L c ct = .ok P → ∃ Q, c.toPoint? q P = some Q := by
    intro P hP
    rcases py_decode hw.pyDecode ct with ⟨P', d1, d2⟩ | ⟨d1, ⟨P', ⟨_, _, -, -, d3⟩, d2⟩ | d2 | ⟨d3, d2⟩⟩
    · rw [hP] at d2; cases d2
      obtain ⟨Q, h1, -⟩ := toPoint_of_oct2point hc d1
      exact ⟨Q, h1⟩
    · rw [hP] at d2; cases d2
      obtain ⟨Q, h1, -⟩ := toPoint_of_oct2point hc d3
      exact ⟨Q, h1⟩
    · rw [hP] at d2; cases d2
    · rw [hP] at d2; cases d2
  have hmul : ∀ (a b : Int) P, a ≡ b [ZMOD c.order] → Py.fromBytes w.L c ct = .ok P →
      w.L.mul a P = w.L.mul b P := by
    intro a b P hab hP
    obtain ⟨Q, hQ⟩ := hdec P hP
    rw [hw.pyMul, hw.pyMul, mulRaw_of hQ, mulRaw_of hQ, hE.zsmul_congr hab]
  refine ⟨?_, ?_, ?_, ?_, ?_⟩
  · simp only [World.reEncrypt, hcr, py_create hc hw hk0 hk.2, Py.Out.ok_bind, Py.reEncrypt]
    cases hP : Py.fromBytes w.L c ct with
    | raises e => rfl
    | ok P => simp only [Py.Out.ok_bind, Py.encryptPoint, hmul _ _ P hcong hP]
  · simp only [World.decrypt, hcr, py_create hc hw hk0 hk.2, Py.Out.ok_bind, Py.decrypt]
    cases hP : Py.fromBytes w.L c ct with
    | raises e => rfl
    | ok P => simp only [Py.Out.ok_bind, hmul _ _ P hicong hP]
  · intro k k' h1 h2 h
    rw [hcr] at h1
    rw [py_create hc hw hk0 hk.2] at h2
    cases h1
    cases h2
    have := congrArg BN.ofBytes h
    simp only [Py.privKeyBytes, BN.ofBytes_natToBytes] at this
    omega
  · exact (C112_keys hc hw t big).2.1 (by omega)
  · exact (C112_keys hc hw t big).2.2.2 (fun h => by have := h.2; omega)

/-- **C112 fails for a point object that is used twice**: Python's `EncryptPoint` changes the
caller's point, so for every valid key and point a second call on the same object returns
other bytes than the first, those of a double encryption. -/
theorem C112_encrypt_point_fails (hc : c.Certified q gx gy) {w : World c q} (hw : w.Ok)
    (t : Hash) {key : Bytes} (hk : ValidKey c key) {k : Py.Cipher}
    (hcr : Py.create w.L c (some key) (some t.py) w.word = .ok k)
    {x y : Int} (hP : IsPoint c.p c.a c.b x y) :
    ∃ b₁ b₂ P', Py.encryptPoint w.L k (.aff x y) = (b₁, P') ∧
      (Py.encryptPoint w.L k P').1 = b₂ ∧ b₁ ≠ b₂ ∧
      w.reEncrypt gx gy .cpp t key b₁ = some b₂ := by
  have hk0 : 0 < BN.ofBytes key := by have := hk.1; omega
  have hE := group_lawful hc w
  rw [py_create hc hw hk0 hk.2] at hcr
  cases hcr
  obtain ⟨Q, e1, -, e3⟩ := toPoint_of_onCurve hc.proper hc.smooth ((isPoint_iff _ _ _).2 hP)
  have hn := hE.zsmul_ne (k := BN.ofBytes key) (not_dvd hk0 hk.2) e3
  obtain ⟨b1, a1, -, a3⟩ := apply_scalar hc hw (not_dvd hk0 hk.2) e1 e3
  obtain ⟨b2, a4, -, a6⟩ := apply_scalar hc hw (not_dvd hk0 hk.2)
    (c.toPoint_ofPoint (BN.ofBytes key • Q)) hn
  obtain ⟨b3, a7, a8⟩ := reEncrypt_any hc hw t hk hn a1
  rw [a4] at a7
  cases a7
  refine ⟨b1, b2, c.ofPoint (BN.ofBytes key • Q), ?_, ?_, ?_, a8 .cpp⟩
  · simp only [Py.encryptPoint, hw.pyMul, mulRaw_of e1]
    rw [← a3, hw.pyMul, mulRaw_of e1]
  · simp only [Py.encryptPoint, a6]
  · rintro rfl
    have h1 := hE.toBytes_inj a1 a4
    have h2 : (BN.ofBytes key - 1) • (BN.ofBytes key • Q) = 0 := by
      rw [sub_zsmul, one_zsmul, ← h1, add_neg_cancel]
    have := hk.1
    exact hE.zsmul_ne (k := BN.ofBytes key - 1)
      (not_dvd (c := c) (by omega) (by have := hk.2; omega)) hn h2

end

/-! ### The hypotheses can be met -/

/-- BouncyCastle's square root from any correct one. -/
def bcOf (sqrt : BigNum → BigNum → Res BigNum) (q : Nat) (a : Int) : Option Int :=
  match sqrt a q with
  | .ok s => if 0 ≤ s ∧ s < q ∧ (s * s - a) % q = 0 then some s else none
  | _ => none

theorem bcOf_ok {sqrt : BigNum → BigNum → Res BigNum} {q : Nat} (h : SqrtOk sqrt q) :
    BcSqrt (bcOf sqrt q) q := by
  intro a
  by_cases hz : ∃ z : Int, (z * z - a) % q = 0
  · obtain ⟨z, hz⟩ := hz
    obtain ⟨s, h1, h2⟩ := h a z hz
    exact Or.inl ⟨s, by simp only [bcOf, h1, if_pos h2], h2⟩
  · right
    refine ⟨?_, fun z h => hz ⟨z, h⟩⟩
    simp only [bcOf]
    split
    · rw [if_neg fun h => hz ⟨_, h.2.2⟩]
    · rfl

/-- Digests of the right lengths, all zero: every string is sent to x-coordinate zero. -/
def zeroHashes : Hashes where
  sha256 _ := List.replicate 32 0
  sha384 _ := List.replicate 48 0
  sha512 _ := List.replicate 64 0
  hmacSha512 _ _ := []

/-- Libraries for a curve; Python's takes any key and decodes hybrid encodings, like
OpenSSL. -/
noncomputable def worldOf (c : Curve) (q : Nat) [Fact q.Prime]
    (sqrt : BigNum → BigNum → Res BigNum) : World c q where
  H := zeroHashes
  sqrt := sqrt
  sswu _ _ := .crash
  bc := bcOf sqrt q
  bcMul := mulRaw c q
  L := { oct2point := sec1Decode c, acceptsKey := fun _ => true, sqrt := sqrt,
         mul := mulRaw c q, infBytes := [0] }
  word := 5
  fuel := 1

theorem worldOf_ok (c : Curve) {q : Nat} [Fact q.Prime] {sqrt : BigNum → BigNum → Res BigNum}
    (h : SqrtOk sqrt q) : (worldOf c q sqrt).Ok where
  sha := ⟨fun _ => rfl, fun _ => rfl, fun _ => rfl⟩
  sqrt := h
  bc := bcOf_ok h
  bcMul _ _ := rfl
  pySqrt := h
  pyMul _ _ := rfl
  pyDecode := Or.inr rfl
  pyKeys _ _ _ := rfl

theorem worldOf_hash (c : Curve) (q : Nat) [Fact q.Prime] (sqrt : BigNum → BigNum → Res BigNum)
    (m : Bytes) : cppHash c (worldOf c q sqrt).H .sha256 (worldOf c q sqrt).sqrt
      (worldOf c q sqrt).fuel m = c.hashSha256 zeroHashes sqrt 1 m := rfl

/-- Two keys, a string, and the packages on P-256: encrypt in Python, again in Java, decrypt
in C++. -/
example : ∃ w : World p256 q256, w.Ok ∧ ∃ e₁ e₂ d,
    w.encrypt p256Gx p256Gy .python .sha256 [7] [1, 2] = some e₁ ∧
    w.encrypt p256Gx p256Gy .java .sha256 [1, 0] [1, 2] = some e₂ ∧
    w.reEncrypt p256Gx p256Gy .java .sha256 [1, 0] e₁ = some d ∧
    w.decrypt p256Gx p256Gy .cpp .sha256 [7] d = some e₂ := by
  obtain ⟨z, hz⟩ := hash_stops_of (H := zeroHashes) (m := [1, 2]) (by decide +kernel) p256_zero
  have hw := worldOf_ok p256 q256_sqrt
  obtain ⟨e₁, e₂, d, h1, h2, h3, -, h5, -⟩ := C112_mixed (gx := p256Gx) (gy := p256Gy)
    (Or.inl ⟨rfl, rfl, rfl, rfl⟩) hw .sha256 (k₁ := [7]) (k₂ := [1, 0])
    (by constructor <;> decide +kernel) (by constructor <;> decide +kernel) [1, 2]
    (by rw [worldOf_hash, hz]; simp)
  exact ⟨_, hw, e₁, e₂, d, h1 _, h2 _, h3 _, h5 _⟩

/-- The hypotheses of `C112_python_large_key_fails`: the key 2 and the key order + 2. -/
example : ValidKey p256 [2] ∧
    BN.ofBytes (BN.natToBytes (p256.order + 2)) = BN.ofBytes [2] + p256.order := by
  refine ⟨by constructor <;> decide +kernel, ?_⟩
  rw [BN.ofBytes_natToBytes]
  decide +kernel

/-- **C112 fails for hybrid encodings**: every point has one that Java and Python over
OpenSSL accept (with the result for that point) and the C++ package refuses. -/
theorem C112_hybrid_fails {c : Curve} {q : Nat} [Fact q.Prime] {gx gy : Int}
    (hc : c.Certified q gx gy) {w : World c q} (hw : w.Ok) (hL : w.L.oct2point = sec1Decode c)
    (t : Hash) {key : Bytes} (hk : ValidKey c key) {x y : Int} (hP : IsPoint c.p c.a c.b x y) :
    ∃ ct bs, w.reEncrypt gx gy .java t key ct = some bs ∧
      w.reEncrypt gx gy .python t key ct = some bs ∧ w.reEncrypt gx gy .cpp t key ct = none := by
  have hon := (isPoint_iff _ _ _).2 hP
  obtain ⟨hx0, hx1, hy0, hy1, -⟩ := hP
  obtain ⟨Q, e1, -, e3⟩ := toPoint_of_onCurve hc.proper hc.smooth hon
  obtain ⟨bs, -, h2, h3, -⟩ := reEncrypt_point hc hw t hk e1 e3
  obtain ⟨ct, hct, hdec⟩ := hc.proper.oct2point_uncompressed hon
  simp only [point2octUncompressed, Option.some.injEq] at hct
  subst hct
  set rest := padTo c.fieldLen (BN.natToBytes x.toNat) ++
      padTo c.fieldLen (BN.natToBytes y.toNat) with hrest
  have hlen : rest.length = 2 * c.fieldLen := by
    by_contra hl
    simp [oct2point, hl] at hdec
  have hxy : BN.ofBytes (rest.take c.fieldLen) = x ∧ BN.ofBytes (rest.drop c.fieldLen) = y := by
    simp only [oct2point, if_true, hlen] at hdec
    split at hdec
    · simpa using hdec
    · cases hdec
  -- the first byte
  obtain ⟨b, hb67, hbv⟩ : ∃ b : Byte, (b = 6 ∨ b = 7) ∧ b.val = 6 + y.toNat % 2 := by
    rcases Nat.mod_two_eq_zero_or_one y.toNat with h | h
    · exact ⟨6, Or.inl rfl, by rw [h]; rfl⟩
    · exact ⟨7, Or.inr rfl, by rw [h]; rfl⟩
  have hb0 : b ≠ 0 := by rcases hb67 with rfl | rfl <;> decide
  have hb23 : ¬ (b = 2 ∨ b = 3) := by rcases hb67 with rfl | rfl <;> decide
  have hb4 : b ≠ 4 := by rcases hb67 with rfl | rfl <;> decide
  have hpar : BN.isBitSet y 0 = decide (b = 7) := by
    rcases hb67 with rfl | rfl
    · rw [Bool.eq_iff_iff, isBitSet_zero hy0]
      have : (6 : Byte).val = 6 := rfl
      rw [this] at hbv
      have h6 : ¬ (6 : Byte) = 7 := by decide
      simp only [h6, decide_false, Bool.false_eq_true, iff_false]
      omega
    · rw [Bool.eq_iff_iff, isBitSet_zero hy0]
      have : (7 : Byte).val = 7 := rfl
      rw [this] at hbv
      simp only [decide_true, iff_true]
      omega
  refine ⟨b :: rest, bs, h2 _ ?_, h3 _ ?_, ?_⟩
  · refine checkPointOnCurve_aff ?_ hon
    simp only [Java.decodePoint, if_neg hb0, if_neg hb23, if_pos (Or.inr hb67 : b = 4 ∨ b = 6 ∨ b = 7),
      if_pos hlen, hxy.1, hxy.2]
    rw [if_neg (fun h => h.2 hpar), if_pos hon]
  · have : sec1Decode c (b :: rest) = some (.aff x y) := by
      simp only [sec1Decode, if_neg hb0, if_pos hb67, hdec]
      rw [if_pos (by omega)]
    simp [Py.fromBytes, hL, this, Py.checkValidity, isOnCurve, hon, isAtInfinity]
  · exact reEncrypt_cpp_none hc w t hk (by simp only [oct2point, if_neg hb4, if_neg hb23])

/-- Its hypotheses are met on P-256. -/
example : ∃ w : World p256 q256, w.Ok ∧ w.L.oct2point = sec1Decode p256 ∧
    p256.Certified q256 p256Gx p256Gy ∧ ValidKey p256 [7] ∧
    IsPoint p256.p p256.a p256.b p256Gx p256Gy :=
  ⟨_, worldOf_ok p256 q256_sqrt, rfl, p256_certified, by constructor <;> decide +kernel,
    (isPoint_iff _ _ _).1 p256_certified.base⟩

end Interop
end PJC
