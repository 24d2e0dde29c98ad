import Verif.Props.ProtocolClient
/-
C08, C09: malformed and hostile messages.
-/
set_option linter.unusedSectionVars false
namespace PJC.Protocol
open PJC.Props

variable {G : Type} [AddCommGroup G] [DecidableEq G]

/-! ### Specification -/

/-- The byte string is the encoding of a point of the curve other than infinity. -/
def IsPoint (E : EcGroup G) (bs : Bytes) : Prop := ∃ P, E.oct2point bs = some P ∧ P ≠ 0

/-- The server has been asked to start (and has its key). -/
structure Server.Keyed (E : EcGroup G) (K : EcCipher G) (s : Server G) : Prop where
  cipher : s.cipher = some K
  of : CipherOf E .sha256 K

theorem reEncrypt_malformed {E : EcGroup G} (hE : E.Lawful) {K : EcCipher G}
    (hK : CipherOf E .sha256 K) {bs : Bytes} (h : ¬ IsPoint E bs) :
    K.reEncrypt bs = .err .invalidArgument := by
  have g := hK.good hE
  unfold EcCipher.reEncrypt EcGroup.createECPoint
  rw [g.group]
  cases hp : E.oct2point bs with
  | none => rfl
  | some P =>
    by_cases h0 : P = 0
    · simp [h0]
    · exact absurd ⟨P, hp, h0⟩ h

theorem reEncrypt_point {E : EcGroup G} (hE : E.Lawful) {K : EcCipher G}
    (hK : CipherOf E .sha256 K) {bs : Bytes} (h : IsPoint E bs) :
    ∃ r, K.reEncrypt bs = .ok r ∧ IsPoint E r := by
  have g := hK.good hE
  obtain ⟨P, hP, hP0⟩ := h
  have hne := g.smul_ne hE hP0
  obtain ⟨r, hr, hr'⟩ := hE.decode_encode _ hne
  refine ⟨r, ?_, _, hr', hne⟩
  simp only [EcCipher.reEncrypt, EcGroup.createECPoint, g.group, hP, if_neg hP0, Res.ok_bind,
    EcCipher.encryptPoint, EcGroup.toBytesCompressed, hr]

theorem server_reEncryptLoop_spec {E : EcGroup G} (hE : E.Lawful) {K : EcCipher G}
    (hK : CipherOf E .sha256 K) : ∀ (set : List EncElement),
    (∃ r, Server.reEncryptLoop K set = .ok r ∧ (∀ e ∈ set, IsPoint E e.element) ∧
      ∀ e ∈ r, IsPoint E e.element) ∨
    (Server.reEncryptLoop K set = .err .invalidArgument ∧ ∃ e ∈ set, ¬ IsPoint E e.element)
  | [] => .inl ⟨[], rfl, by simp, by simp⟩
  | a :: as => by
    by_cases ha : IsPoint E a.element
    · obtain ⟨r, hr, hr'⟩ := reEncrypt_point hE hK ha
      rcases server_reEncryptLoop_spec hE hK as with ⟨rs, h1, h2, h3⟩ | ⟨h1, e, he, hne⟩
      · refine .inl ⟨⟨r, a.data⟩ :: rs, ?_, ?_, ?_⟩
        · simp only [Server.reEncryptLoop, hr, h1, Res.ok_bind, Res.pure_eq]
        · intro e he
          rcases List.mem_cons.1 he with rfl | he
          · exact ha
          · exact h2 e he
        · intro e he
          rcases List.mem_cons.1 he with rfl | he
          · exact hr'
          · exact h3 e he
      · refine .inr ⟨?_, e, by simp [he], hne⟩
        simp only [Server.reEncryptLoop, hr, h1, Res.ok_bind, Res.err_bind]
    · refine .inr ⟨?_, a, by simp, ha⟩
      simp only [Server.reEncryptLoop, reEncrypt_malformed hE hK ha, Res.err_bind]

theorem client_reEncryptLoop_spec {E : EcGroup G} (hE : E.Lawful) {K : EcCipher G}
    (hK : CipherOf E .sha256 K) : ∀ (set : List EncElement),
    (∃ r, Client.reEncryptLoop K set = .ok r ∧ (∀ e ∈ set, IsPoint E e.element)) ∨
    (Client.reEncryptLoop K set = .err .invalidArgument ∧ ∃ e ∈ set, ¬ IsPoint E e.element)
  | [] => .inl ⟨[], rfl, by simp⟩
  | a :: as => by
    by_cases ha : IsPoint E a.element
    · obtain ⟨r, hr, hr'⟩ := reEncrypt_point hE hK ha
      rcases client_reEncryptLoop_spec hE hK as with ⟨rs, h1, h2⟩ | ⟨h1, e, he, hne⟩
      · refine .inl ⟨⟨r, []⟩ :: rs, ?_, ?_⟩
        · simp only [Client.reEncryptLoop, hr, h1, Res.ok_bind, Res.pure_eq]
        · intro e he
          rcases List.mem_cons.1 he with rfl | he
          · exact ha
          · exact h2 e he
      · refine .inr ⟨?_, e, by simp [he], hne⟩
        simp only [Client.reEncryptLoop, hr, h1, Res.ok_bind, Res.err_bind]
    · refine .inr ⟨?_, a, by simp, ha⟩
      simp only [Client.reEncryptLoop, reEncrypt_malformed hE hK ha, Res.err_bind]

/-- An odd modulus above 1 makes a usable public key. -/
theorem pk_of_odd (cfg : ExpCfg) (x : Int) {n : Int} (h1 : 1 < n) (h2 : n % 2 = 1) :
    ∃ pk, PublicPaillier.new cfg x n 2 = .ok pk := by
  obtain ⟨n, rfl⟩ := Int.eq_ofNat_of_zero_le (show 0 ≤ n by omega)
  apply PublicPaillier.new_ok cfg x n 2 (by omega) (by omega)
  intro i hi1 hi2
  obtain rfl | rfl : i = 1 ∨ i = 2 := by omega
  · exact Nat.coprime_one_left n
  · exact (Nat.coprime_two_left).2 (Nat.odd_iff.2 (by omega))

/-! ### C08 -/

/-- **C08**, server.  If any element of the client's encrypted set, at any position, is not
the encoding of a point other than infinity, the server sends nothing, stays as it was and
does not answer OK; with a usable public key (odd and above 1) the answer is
INVALID_ARGUMENT. -/
theorem C08_server_refuses (E : EcGroup G) (hE : E.Lawful) (K : EcCipher G) (s : Server G)
    (hK : s.Keyed E K) (rnd : ServerRand) (sink : ServerMsg → Res Unit) (m : ClientRoundOne)
    (e : EncElement) (he : e ∈ m.encryptedSet) (hbad : ¬ IsPoint E e.element) :
    let o := s.handle rnd sink (.roundOne m)
    o.sent = [] ∧ o.state = s ∧ o.status ≠ .ok () ∧
    (1 < BN.ofBytes m.publicKey → BN.ofBytes m.publicKey % 2 = 1 →
      o.status = .err .invalidArgument) := by
  intro o
  simp only [o, Server.handle]
  by_cases hf : s.finished = true
  · simp [hf]
  simp only [hf, Bool.false_eq_true, if_false]
  have hloop : Server.reEncryptLoop K m.encryptedSet = .err .invalidArgument := by
    rcases server_reEncryptLoop_spec hE hK.of m.encryptedSet with ⟨r, -, h, -⟩ | ⟨h, -⟩
    · exact absurd (h e he) hbad
    · exact h
  have hcomp : s.computeIntersection rnd m =
      (PublicPaillier.new s.cfg (rnd.relPrime (BN.ofBytes m.publicKey)) (BN.ofBytes m.publicKey) 2
        >>= fun _ => .err .invalidArgument) := by
    simp only [Server.computeIntersection, hK.cipher, hloop, Res.err_bind]
  rw [hcomp]
  by_cases hpk : ∃ pk, PublicPaillier.new s.cfg (rnd.relPrime (BN.ofBytes m.publicKey))
      (BN.ofBytes m.publicKey) 2 = .ok pk
  · obtain ⟨pk, hpk⟩ := hpk
    simp [hpk]
  · refine ⟨?_, ?_, ?_, fun h1 h2 => absurd (pk_of_odd s.cfg _ h1 h2) hpk⟩ <;>
    · revert hpk
      cases PublicPaillier.new s.cfg (rnd.relPrime (BN.ofBytes m.publicKey))
        (BN.ofBytes m.publicKey) 2 <;> simp

/-- **C08**, client.  If any element of a server-round-one message is not the encoding of a
point other than infinity, the client sends nothing and does not answer OK; with usable
keys and inputs (as an honest client has) the answer is INVALID_ARGUMENT. -/
theorem C08_client_refuses (E : EcGroup G) (hE : E.Lawful) (c : Client G)
    (hK : CipherOf E .sha256 c.cipher) (rnd : ClientRand) (sink : ClientMsg → Res Unit)
    (set : List EncElement) (e : EncElement) (he : e ∈ set) (hbad : ¬ IsPoint E e.element) :
    let o := c.handle rnd sink (.roundOne set)
    o.sent = [] ∧ o.status ≠ .ok () ∧
    ((∃ r, (c.handle rnd accept (.roundOne [])).sent = [.roundOne r]) →
      o.status = .err .invalidArgument) := by
  intro o
  simp only [o, Client.handle]
  by_cases hf : c.finished = true
  · simp [hf]
  simp only [hf, Bool.false_eq_true, if_false]
  have hloop : Client.reEncryptLoop c.cipher set = .err .invalidArgument := by
    rcases client_reEncryptLoop_spec hE hK set with ⟨r, -, h⟩ | ⟨h, -⟩
    · exact absurd (h e he) hbad
    · exact h
  simp only [Client.reEncryptSet, hloop]
  cases PrivatePaillier.new c.cfg c.p c.q 2 with
  | err e => simp
  | crash => simp
  | ub => simp
  | ok sk =>
    simp only []
    cases BN.toBytes (c.p * c.q) with
    | err e => simp
    | crash => simp
    | ub => simp
    | ok pk =>
      simp only [Res.ok_bind]
      cases Client.encryptLoop c.cipher sk c.values rnd.draws 0 c.elements with
      | err e => simp
      | crash => simp
      | ub => simp
      | ok own => simp

open Classical in
/-- **C08**, re-encrypted set.  Elements of the re-encrypted set are only compared: those
that are not encodings of a point never count.  The server does exactly what it would do
without them. -/
theorem C08_malformed_never_counted (E : EcGroup G) (hE : E.Lawful) (K : EcCipher G)
    (s : Server G) (hK : s.Keyed E K) (rnd : ServerRand) (hr : rnd.Ok)
    (sink : ServerMsg → Res Unit) (m : ClientRoundOne) :
    s.handle rnd sink (.roundOne m) = s.handle rnd sink (.roundOne { m with
      reencryptedSet := m.reencryptedSet.filter fun e => decide (IsPoint E e.element) }) := by
  have hcomp : s.computeIntersection rnd m = s.computeIntersection rnd { m with
      reencryptedSet := m.reencryptedSet.filter fun e => decide (IsPoint E e.element) } := by
    simp only [Server.computeIntersection, hK.cipher]
    rcases server_reEncryptLoop_spec hE hK.of m.encryptedSet with ⟨r, h1, h2, h3⟩ | ⟨h, -⟩
    · rw [h1]
      have : setIntersection (rnd.sortClient r) (rnd.sortServer m.reencryptedSet) =
          setIntersection (rnd.sortClient r) (rnd.sortServer
            (m.reencryptedSet.filter fun e => decide (IsPoint E e.element))) := by
        apply setIntersection_congr (hr.sortClient.sorted _) (hr.sortServer.sorted _)
          (hr.sortServer.sorted _)
        intro a ha
        have hp : IsPoint E a.element := h3 a ((hr.sortClient.perm r).mem_iff.1 ha)
        rw [(hr.sortServer.perm _).countP_eq, (hr.sortServer.perm _).countP_eq,
          List.countP_filter]
        apply List.countP_congr
        intro e _
        simp only [decide_eq_true_eq, Bool.and_eq_true]
        exact ⟨fun h => ⟨h, h ▸ hp⟩, fun h => h.1⟩
      simp only [Res.ok_bind, this]
    · simp only [h, Res.err_bind]
  simp only [Server.handle, hcomp]

/-! ### C09 -/

/-- C09 in full, server: `Handle` returns for every message and every draw. -/
def C09ServerStatement (s : Server G) : Prop :=
  ∀ (rnd : ServerRand), rnd.Ok → ∀ m : ClientMsg, (s.handle rnd accept m).status.returns

/-- C09 in full, client. -/
def C09ClientStatement (c : Client G) : Prop :=
  ∀ (rnd : ClientRand), rnd.Ok → ∀ m : ServerMsg, (c.handle rnd accept m).status.returns

/-- The constructor of the public key aborts on zero and on every even modulus. -/
theorem publicPaillier_even_crash (cfg : ExpCfg) (x n : Int) (h0 : 0 ≤ n) (h : n % 2 = 0) :
    PublicPaillier.new cfg x n 2 = .crash := by
  obtain ⟨n, rfl⟩ := Int.eq_ofNat_of_zero_le h0
  unfold PublicPaillier.new
  by_cases hn : (n : Int) ≤ 0
  · rw [if_pos hn]
  rw [if_neg hn]
  have hlast : (DJ.getPowers (n : Int) 2).getLastD 0 = (n : Int) ^ 3 := DJ.getPowers_last _ _
  have hpw : (DJ.getPowers (n : Int) 2).getD 2 0 = (n : Int) ^ 2 := DJ.getPowers_get _ _ _ (by omega)
  have hpos : (0 : Int) < (n : Int) ^ 3 := pow_pos (by omega) _
  have hpre : DJ.getPrecomp (n : Int) ((n : Int) ^ 3) 2 = .crash := by
    have h2 : BN.modInverse ((2 : Nat) : Int) ((n : Int) ^ 3) = .err .invalidArgument := by
      unfold BN.modInverse
      rw [if_neg]
      rintro ⟨-, hg⟩
      have hd : ((2 : Nat) : Int) ∣ (n : Int) ^ 3 :=
        Dvd.dvd.trans (Int.dvd_of_emod_eq_zero h) (dvd_pow_self _ (by norm_num))
      have h2 : (2 : Nat) ∣ Int.gcd ((2 : Nat) : Int) ((n : Int) ^ 3) :=
        Int.natCast_dvd_natCast.1 (Int.dvd_coe_gcd (dvd_refl _) hd)
      rw [hg] at h2
      norm_num at h2
    have h1 : BN.modInverse ((1 : Nat) : Int) ((n : Int) ^ 3) = .ok (BN.inv 1 ((n : Int) ^ 3)) := by
      unfold BN.modInverse
      rw [if_pos ⟨hpos, by simp⟩]
      rfl
    simp only [DJ.getPrecomp, DJ.precompLoop, h1, h2, Res.value, Res.ok_bind, Nat.reduceAdd]
    rfl
  simp only [hlast, hpw, hpre]
  have hnn : ¬ ((n : Int) ^ 2 < 0) := not_lt.2 (sq_nonneg _)
  simp only [BN.modExp, hnn, if_false, ne_of_gt hpos, Res.ok_bind]
  have hget : ∀ b, (FixedBaseExp.get cfg.flag cfg.radixBits b ((n : Int) ^ 3)
      >>= fun fbe => (Res.crash : Res PublicPaillier)) = .crash := by
    intro b
    have : (n : Int) ^ 3 % 2 = 0 := Int.emod_eq_zero_of_dvd
      (Dvd.dvd.trans (Int.dvd_of_emod_eq_zero h) (dvd_pow_self _ (by norm_num)))
    unfold FixedBaseExp.get
    by_cases hfl : cfg.flag = true
    · simp only [hfl, if_true, Mont.newCtx, this, or_true, Res.crash_bind]
    · simp only [hfl, Bool.false_eq_true, if_false, Res.ok_bind]
  exact hget _

/-- C09 does not hold for the server: once started, a message whose public key is zero (the
empty string) or any even number aborts it. -/
theorem C09_server_fails (E : EcGroup G) (K : EcCipher G) (s : Server G) (hK : s.Keyed E K)
    (hf : s.finished = false) (rnd : ServerRand) (sink : ServerMsg → Res Unit)
    (m : ClientRoundOne) (heven : BN.ofBytes m.publicKey % 2 = 0) :
    (s.handle rnd sink (.roundOne m)).status = .crash := by
  have hcomp : s.computeIntersection rnd m = .crash := by
    simp only [Server.computeIntersection, hK.cipher,
      publicPaillier_even_crash s.cfg _ _ (BN.ofBytes_nonneg _) heven, Res.crash_bind]
  simp [Server.handle, hf, hcomp]

/-- C09 does not hold for the client: after round one, a round-two message whose encrypted
sum is any number below N³ sharing a factor with N — for example 0, the empty string —
aborts it. -/
theorem C09_client_fails (c : Client G) (p q : Nat) (sk : PrivatePaillier)
    (hsk : PrivatePaillier.new c.cfg p q 2 = .ok sk) (hkey : c.paillier = some sk)
    (hf : c.finished = false) (rnd : ClientRand) (sink : ClientMsg → Res Unit)
    (m : ServerRoundTwo) (hlt : BN.ofBytes m.encryptedSum < ((p * q : Nat) : Int) ^ 3)
    (hg : Int.gcd (BN.ofBytes m.encryptedSum) ((p * q : Nat) : Int) ≠ 1) :
    (c.handle rnd sink (.roundTwo m)).status = .crash := by
  have hd := (C13_decrypt_in_range c.cfg p q 2 (by norm_num) sk hsk (BN.ofBytes m.encryptedSum)
    (BN.ofBytes_nonneg _) hlt).2 hg
  have : c.decryptSum m = .crash := by
    simp only [Client.decryptSum, hkey, hd, Res.crash_bind]
  simp [Client.handle, hf, this]

theorem foldl_add_nonneg {pk : PublicPaillier} (hpos : 0 < pk.modulus) : ∀ (l : List EncElement)
    (z : Int), 0 ≤ z → 0 ≤ l.foldl (fun acc e => pk.add acc (BN.ofBytes e.data)) z
  | [], _, hz => hz
  | _ :: l, _, _ => foldl_add_nonneg hpos l _ (Int.emod_nonneg _ (ne_of_gt hpos))

/-- **C09**, server, what holds: `Handle` returns for every message of every kind, except
client-round-one messages whose public key is not an odd number above 1. -/
theorem C09_server_partial (s : Server G)
    (hcurve : ∀ E, s.curve = .ok E → E.Lawful ∧ ∀ a ∈ s.inputs, (E.hashSha256 a).returns)
    (hcurve' : s.curve.returns) (hkey : ∀ K, s.cipher = some K → ∃ E, E.Lawful ∧ CipherOf E .sha256 K)
    (rnd : ServerRand) (hr : rnd.Ok) (m : ClientMsg)
    (hm : ∀ r, m = .roundOne r → 1 < BN.ofBytes r.publicKey ∧ BN.ofBytes r.publicKey % 2 = 1) :
    (s.handle rnd accept m).status.returns := by
  unfold Server.handle
  by_cases hf : s.finished = true
  · simp [hf]
  simp only [hf, Bool.false_eq_true, if_false]
  cases m with
  | other => simp
  | empty => simp
  | start =>
    simp only [Server.encryptSet]
    cases hc : s.cipher with
    | some K => simp
    | none =>
      simp only []
      cases hcu : s.curve with
      | err e => simp [EcCipher.createWithNewKey]
      | crash => simp [hcu] at hcurve'
      | ub => simp [hcu] at hcurve'
      | ok E =>
        obtain ⟨hE, hh⟩ := hcurve E hcu
        obtain ⟨K, hK, hK'⟩ := createWithNewKey_ok hE rnd.keyWord
        have hloop : ∀ as : List Bytes, (∀ a ∈ as, (E.hashSha256 a).returns) →
            (Server.encryptLoop K as).returns := by
          intro as
          induction as with
          | nil => intro _; simp [Server.encryptLoop]
          | cons a as ih =>
            intro h
            have g := hK'.good hE
            simp only [Server.encryptLoop]
            apply Res.returns_bind
            · simp only [EcCipher.encrypt, EcCipher.hashToTheCurveInternal, g.hashType, g.group]
              apply Res.returns_bind (h a (by simp))
              intro P _
              simp only [EcCipher.encryptPoint, Res.ok_bind, EcGroup.toBytesCompressed]
              split <;> simp
            · intro e _
              apply Res.returns_bind (ih fun b hb => h b (by simp [hb]))
              intro r _
              simp
        simp only [hK]
        have := hloop s.inputs hh
        cases hl : Server.encryptLoop K s.inputs <;> simp_all [accept]
  | roundOne m =>
    obtain ⟨h1, h2⟩ := hm m rfl
    have : (s.computeIntersection rnd m).returns := by
      unfold Server.computeIntersection
      cases hc : s.cipher with
      | none => simp
      | some K =>
        obtain ⟨E, hE, hK⟩ := hkey K hc
        obtain ⟨pk, hpk⟩ := pk_of_odd s.cfg (rnd.relPrime (BN.ofBytes m.publicKey)) h1 h2
        simp only [hpk, Res.ok_bind]
        rcases server_reEncryptLoop_spec hE hK m.encryptedSet with ⟨r, h1', -, -⟩ | ⟨h, -⟩
        · obtain ⟨n, hn⟩ := Int.eq_ofNat_of_zero_le (BN.ofBytes_nonneg m.publicKey)
          have hg : pk.Good s.cfg _ n 2 := PublicPaillier.new_good (by rw [← hn]; exact hpk)
          have hl := hr.lessThan (BN.ofBytes m.publicKey) (by omega)
          rw [hn] at hl
          obtain ⟨z, hz, -⟩ := PublicPaillier.encryptUsingGen_spec hg 0 hl.1 hl.2.le
          have hpos : (0 : Int) < (n : Int) ^ 2 := pow_pos (by omega) _
          have hpos3 : (0 : Int) < (n : Int) ^ 3 := pow_pos (by omega) _
          have henc : pk.encrypt 0 (rnd.lessThan n) = .ok (z % (n : Int) ^ 3) := by
            unfold PublicPaillier.encrypt
            rw [if_neg (by omega), hg.hs, hg.powers 2 (by omega), if_neg (by omega), hz]
          simp only [h1', Res.ok_bind, hn, henc]
          rw [BN.toBytes_of_nonneg (foldl_add_nonneg (by rw [hg.hmod]; exact hpos3) _ _
            (Int.emod_nonneg _ (ne_of_gt hpos3)))]
          simp
        · simp [h]
    simp only []
    cases hcomp : s.computeIntersection rnd m <;> simp_all [accept]

/-- **C09**, client, what holds: with two usable primes and a value for each identifier,
`Handle` returns for every message of every kind, except server-round-two messages whose
encrypted sum is below N³ and shares a factor with N. -/
theorem C09_client_partial (c : Client G) (E : EcGroup G) (hE : E.Lawful)
    (hK : CipherOf E .sha256 c.cipher) (hhash : ∀ a ∈ c.elements, (E.hashSha256 a).returns)
    (p q : Nat) (hp : c.p = p) (hq : c.q = q) (sk : PrivatePaillier)
    (hsk : PrivatePaillier.new c.cfg p q 2 = .ok sk)
    (hkey : ∀ k, c.paillier = some k → k = sk) (hlen : c.elements.length ≤ c.values.length)
    (rnd : ClientRand) (hr : rnd.Ok) (m : ServerMsg)
    (hm : ∀ r, m = .roundTwo r → ((p * q : Nat) : Int) ^ 3 ≤ BN.ofBytes r.encryptedSum ∨
      Int.gcd (BN.ofBytes r.encryptedSum) ((p * q : Nat) : Int) = 1) :
    (c.handle rnd accept m).status.returns := by
  unfold Client.handle
  by_cases hf : c.finished = true
  · simp [hf]
  simp only [hf, Bool.false_eq_true, if_false]
  have S := PrivatePaillier.new_good (s := 2) (by norm_num) hsk
  cases m with
  | other => simp
  | empty => simp
  | roundOne set =>
    simp only [Client.reEncryptSet, hp, hq, hsk]
    have hown : ∀ (as : List Bytes) (i : Nat), i + as.length ≤ c.values.length →
        (∀ a ∈ as, (E.hashSha256 a).returns) →
        (Client.encryptLoop c.cipher sk c.values rnd.draws i as).returns := by
      intro as
      induction as with
      | nil => intro i _ _; simp [Client.encryptLoop]
      | cons a as ih =>
        intro i hi h
        have g := hK.good hE
        simp only [List.length_cons] at hi
        simp only [Client.encryptLoop]
        apply Res.returns_bind
        · simp only [EcCipher.encrypt, EcCipher.hashToTheCurveInternal, g.hashType, g.group]
          apply Res.returns_bind (h a (by simp))
          intro P _
          simp only [EcCipher.encryptPoint, Res.ok_bind, EcGroup.toBytesCompressed]
          split <;> simp
        · intro e _
          rw [List.getElem?_eq_getElem (show i < c.values.length by omega)]
          simp only []
          have hrest := ih (i + 1) (by omega) (fun b hb => h b (by simp [hb]))
          have hd := hr.draws i
          by_cases hv : 0 ≤ c.values[i] ∧ c.values[i] < ((p * q : Nat) : Int) ^ 2
          · obtain ⟨M, hM⟩ := Int.eq_ofNat_of_zero_le hv.1
            obtain ⟨cp, cq, ct, e1, e2, e3, c0, c1, -, -⟩ := PrivatePaillier.parts_spec S M hd.1 hd.2
            have henc : sk.encrypt c.values[i] (rnd.draws i).1 (rnd.draws i).2 = .ok ct := by
              unfold PrivatePaillier.encrypt
              rw [if_neg (by omega), S.hns, if_neg (by omega), hM, e1]
              simp only [Res.ok_bind, e2, e3]
            rw [henc, Res.ok_bind, BN.toBytes_of_nonneg c0, Res.ok_bind]
            apply Res.returns_bind hrest
            intro r _
            simp
          · have henc : sk.encrypt c.values[i] (rnd.draws i).1 (rnd.draws i).2 =
                .err .invalidArgument := by
              unfold PrivatePaillier.encrypt
              rw [S.hns]
              by_cases h0 : c.values[i] < 0
              · rw [if_pos h0]
              · rw [if_neg h0, if_pos (by omega)]
            simp [henc]
    have hall : (do
        let pk ← BN.toBytes ((p : Int) * q)
        let own ← Client.encryptLoop c.cipher sk c.values rnd.draws 0 c.elements
        let re ← Client.reEncryptLoop c.cipher set
        return ({ publicKey := pk, encryptedSet := own, reencryptedSet := rnd.sort re } :
          ClientRoundOne) : Res ClientRoundOne).returns := by
      rw [BN.toBytes_of_nonneg (by positivity), Res.ok_bind]
      apply Res.returns_bind (hown c.elements 0 (by omega) hhash)
      intro own _
      rcases client_reEncryptLoop_spec hE hK set with ⟨r, h1, -⟩ | ⟨h, -⟩
      · simp [h1]
      · simp [h]
    split <;> simp_all [accept]
  | roundTwo m =>
    simp only []
    have : (c.decryptSum m).returns := by
      unfold Client.decryptSum
      cases hk : c.paillier with
      | none => simp
      | some k =>
        rw [hkey k hk]
        simp only []
        rcases hm m rfl with h | h
        · have : sk.decrypt (BN.ofBytes m.encryptedSum) = .err .invalidArgument := by
            unfold PrivatePaillier.decrypt
            rw [S.hns1, if_neg (by have := BN.ofBytes_nonneg m.encryptedSum; omega),
              if_pos (by push_cast at h ⊢; linarith)]
          simp [this]
        · by_cases hlt : BN.ofBytes m.encryptedSum < ((p * q : Nat) : Int) ^ 3
          · obtain ⟨x, hx, -⟩ := (C13_decrypt_in_range c.cfg p q 2 (by norm_num) sk hsk _
              (BN.ofBytes_nonneg _) hlt).1 h
            simp [hx]
          · have : sk.decrypt (BN.ofBytes m.encryptedSum) = .err .invalidArgument := by
              unfold PrivatePaillier.decrypt
              rw [S.hns1, if_neg (by have := BN.ofBytes_nonneg m.encryptedSum; omega),
                if_pos (by push_cast at hlt ⊢; linarith)]
            simp [this]
    split <;> simp_all

/-! ### Concrete cases -/

/-- A toy server that has answered the start request. -/
theorem toyServer_started (inputs : List Bytes) : ∃ K set,
    (Server.init ⟨false, 64⟩ (.ok toyEc) inputs).handle toyServerRand accept .start =
      ⟨⟨⟨false, 64⟩, .ok toyEc, inputs, some K, false⟩, [.roundOne set], .ok ()⟩ ∧
    CipherOf toyEc .sha256 K := by
  obtain ⟨K, hK, hK'⟩ := createWithNewKey_ok toyEc_lawful toyServerRand.keyWord
  obtain ⟨set, hset⟩ := encryptLoop_ok toyEc_lawful hK' (as := inputs) (fun a _ => ⟨_, rfl, by
    have h1 : (BN.ofBytes a) % 10 + 1 = ((BN.ofBytes a) % 10 + 1).toNat := by
      have := Int.emod_nonneg (BN.ofBytes a) (show (10 : Int) ≠ 0 by norm_num)
      omega
    rw [h1, Int.cast_natCast, Ne, ZMod.natCast_eq_zero_iff]
    intro hd
    have := Int.emod_nonneg (BN.ofBytes a) (show (10 : Int) ≠ 0 by norm_num)
    have h2 := Int.emod_lt_of_pos (BN.ofBytes a) (show (0 : Int) < 10 by norm_num)
    have := Nat.le_of_dvd (by omega) hd
    omega⟩)
  exact ⟨K, set, by simp [Server.handle, Server.init, Server.encryptSet, hK, hset, accept], hK'⟩

/-- A reachable server state for which C09 fails, by the one-byte public key 2. -/
theorem C09_server_statement_fails : ∃ s : Server (ZMod 11),
    s = ((Server.init ⟨false, 64⟩ (.ok toyEc) [[2], [3]]).handle toyServerRand accept .start).state ∧
    ¬ C09ServerStatement s := by
  obtain ⟨K, set, h, hK⟩ := toyServer_started [[2], [3]]
  refine ⟨_, rfl, fun hc => ?_⟩
  have h1 := hc toyServerRand toyServerRand_ok (.roundOne ⟨[2], [], []⟩)
  rw [h] at h1
  rw [C09_server_fails toyEc K _ ⟨rfl, hK⟩ rfl toyServerRand accept ⟨[2], [], []⟩ (by decide)] at h1
  exact h1

/-- A toy client that has answered the server's first message. -/
theorem toyClient_answered : ∃ c sk K r,
    Client.init ⟨true, 64⟩ (.ok toyEc) [] [] 7 11 5 = .ok c ∧
    c.handle toyClientRand accept (.roundOne []) =
      ⟨⟨⟨true, 64⟩, [], [], 7, 11, K, some sk, 0, 0, false⟩, [.roundOne r], .ok ()⟩ ∧
    CipherOf toyEc .sha256 K ∧ PrivatePaillier.new ⟨true, 64⟩ 7 11 2 = .ok sk := by
  obtain ⟨K, hK, hinit⟩ := Client.init_ok toyEc_lawful ⟨true, 64⟩ [] [] 7 11 5
  obtain ⟨-, sk, hsk, -⟩ := C11_keys_exist ⟨true, 64⟩ 7 11 2 0 toySetup.safe_p toySetup.safe_q
    (by norm_num) (by norm_num) (by norm_num) toySetup.gen_p toySetup.gen_q (by norm_num)
  have hsk' : PrivatePaillier.new ⟨true, 64⟩ 7 11 2 = .ok sk := hsk
  have hpk : BN.toBytes ((7 : Int) * 11) = .ok [77] := by decide
  refine ⟨_, sk, K, ⟨[77], [], []⟩, hinit, ?_, hK, hsk'⟩
  simp only [Client.handle, Client.reEncryptSet, hsk', hpk, Client.encryptLoop,
    Client.reEncryptLoop, accept, Bool.false_eq_true, if_false, Res.ok_bind, Res.pure_eq]
  rfl

/-- A reachable client state for which C09 fails, by the empty encrypted sum. -/
theorem C09_client_statement_fails : ∃ c c' : Client (ZMod 11),
    Client.init ⟨true, 64⟩ (.ok toyEc) [] [] 7 11 5 = .ok c ∧
    c' = (c.handle toyClientRand accept (.roundOne [])).state ∧ ¬ C09ClientStatement c' := by
  obtain ⟨c, sk, K, r, h1, h2, hK, hsk⟩ := toyClient_answered
  refine ⟨c, _, h1, rfl, fun hc => ?_⟩
  have h3 := hc toyClientRand toyClientRand_ok (.roundTwo ⟨0, []⟩)
  rw [h2] at h3
  rw [C09_client_fails (⟨⟨true, 64⟩, [], [], 7, 11, K, some sk, 0, 0, false⟩ : Client (ZMod 11))
    7 11 sk hsk rfl rfl toyClientRand accept ⟨0, []⟩ (by decide) (by decide)] at h3
  exact h3

/-- C04: a history with two start requests, an unknown message and a request with a
malformed element: the second start, the unknown message and the request are refused. -/
example : ((serverTrace (Server.init ⟨false, 64⟩ (.ok toyEc) [[2], [3]])
    [⟨toyServerRand, accept, .start⟩, ⟨toyServerRand, accept, .start⟩,
     ⟨toyServerRand, accept, .empty⟩,
     ⟨toyServerRand, accept, .roundOne ⟨[77], [⟨[5], [1]⟩, ⟨[0], [1]⟩], []⟩⟩]).map Out.status) =
    [.ok (), .err .invalidArgument, .err .invalidArgument, .err .invalidArgument] := by
  obtain ⟨K, set, h, hK⟩ := toyServer_started [[2], [3]]
  have hbad : ¬ IsPoint toyEc [0] := by
    rintro ⟨P, hP, -⟩
    simp [toyEc] at hP
  have h8 := (C08_server_refuses toyEc toyEc_lawful K
    ⟨⟨false, 64⟩, .ok toyEc, [[2], [3]], some K, false⟩ ⟨rfl, hK⟩ toyServerRand accept
    ⟨[77], [⟨[5], [1]⟩, ⟨[0], [1]⟩], []⟩ ⟨[0], [1]⟩ (by simp) hbad).2.2.2 (by decide) (by decide)
  simp only [serverTrace, h]
  have h2 : Server.handle ⟨⟨false, 64⟩, .ok toyEc, [[2], [3]], some K, false⟩ toyServerRand accept
      .start = ⟨⟨⟨false, 64⟩, .ok toyEc, [[2], [3]], some K, false⟩, [], .err .invalidArgument⟩ := by
    simp [Server.handle, Server.encryptSet]
  have h3 : Server.handle ⟨⟨false, 64⟩, .ok toyEc, [[2], [3]], some K, false⟩ toyServerRand accept
      .empty = ⟨⟨⟨false, 64⟩, .ok toyEc, [[2], [3]], some K, false⟩, [], .err .invalidArgument⟩ := by
    simp [Server.handle]
  simp only [h2, h3, h8, List.map_cons, List.map_nil]

/-- C05, C06: a history of a toy client: output and round two too early, then round one. -/
example : ∃ c, Client.init ⟨true, 64⟩ (.ok toyEc) [] [] 7 11 5 = .ok c ∧
    (clientTrace c [.print, .handle toyClientRand accept (.roundTwo ⟨3, [1]⟩),
      .handle toyClientRand accept (.roundOne [])]).map ClientStep.status =
      [.err .invalidArgument, .err .invalidArgument, .ok ()] := by
  obtain ⟨c, sk, K, r, h1, h2, hK, hsk⟩ := toyClient_answered
  refine ⟨c, h1, ?_⟩
  have h1' := h1
  simp only [Client.init, Res.bind_eq_ok, Res.pure_eq, Res.ok.injEq] at h1'
  obtain ⟨K', -, rfl⟩ := h1'
  simp only [clientTrace, clientStep, Client.printOutput, Bool.not_false, if_true]
  have h3 : Client.handle (⟨⟨true, 64⟩, [], [], 7, 11, K', none, 0, 0, false⟩ : Client (ZMod 11))
      toyClientRand accept (.roundTwo ⟨3, [1]⟩) =
      ⟨⟨⟨true, 64⟩, [], [], 7, 11, K', none, 0, 0, false⟩, [], .err .invalidArgument⟩ := by
    simp [Client.handle, Client.decryptSum]
  simp only [h3, h2, List.map_cons, List.map_nil]

end PJC.Protocol
