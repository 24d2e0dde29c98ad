import Verif.Props.Ec
/-
Property C82: a commutative cipher can be saved and restored.
-/
set_option linter.unusedSectionVars false
namespace PJC

variable {G : Type} [AddCommGroup G] [DecidableEq G]

theorem EcCipher.make_inv {E : EcGroup G} {k : Int} {t : HashType} {c : EcCipher G}
    (h : EcCipher.make E k t = .ok c) : c.privateKey = k ∧ c.hashType = t ∧ c.group = E := by
  simp only [EcCipher.make, Res.bind_eq_ok, Res.pure_eq, Res.ok.injEq] at h
  obtain ⟨_, -, rfl⟩ := h
  exact ⟨rfl, rfl, rfl⟩

theorem EcCipher.restore {E : EcGroup G} {k : Int} {t : HashType} {c : EcCipher G}
    (h : EcCipher.make E k t = .ok c) (ht : t ≠ .other) (h1 : 1 ≤ k) (h2 : k < E.order) :
    ∃ key, c.getPrivateKeyBytes = .ok key ∧ BN.ofBytes key = k ∧
      EcCipher.createFromKey (.ok E) key t = .ok c := by
  have hk := (EcCipher.make_inv h).1
  have hb : BN.ofBytes (BN.natToBytes k.toNat) = k := by rw [BN.ofBytes_natToBytes]; omega
  refine ⟨BN.natToBytes k.toNat, ?_, hb, ?_⟩
  · rw [EcCipher.getPrivateKeyBytes, hk, BN.toBytes_of_nonneg (by omega)]
  · have hv : (!EcCipher.validateHashType t) = false := by simp [EcCipher.validateHashType, ht]
    simp only [EcCipher.createFromKey, Res.ok_bind, EcGroup.checkPrivateKey, hv, hb]
    rw [if_neg (by simp), if_neg (by omega), Res.ok_bind, h]

/-- **C82**: exporting the key of a cipher (fresh, imported or derived from a seed with a nonzero
key) succeeds, and importing the bytes on the same curve with the same hash function gives the same
cipher, hence the same results for all inputs. -/
theorem C82_export_import (E : EcGroup G) (hE : E.Lawful) (t : HashType) (c : EcCipher G) :
    (CipherOf E t c → ∃ key, c.getPrivateKeyBytes = .ok key ∧
      EcCipher.createFromKey (.ok E) key t = .ok c) ∧
    (∀ (H : Hashes) (fuel : Nat) (seed tag : Bytes),
      EcCipher.createWithKeyFromSeed H fuel (.ok E) seed tag t = some (.ok c) →
      c.privateKey ≠ 0 → ∃ key, c.getPrivateKeyBytes = .ok key ∧
        EcCipher.createFromKey (.ok E) key t = .ok c) := by
  constructor
  · intro h
    cases h with
    | newKey w h =>
      obtain ⟨k, hk, h1, h2⟩ := hE.generatePrivateKey_spec w
      simp only [EcCipher.createWithNewKey, Res.ok_bind, hk] at h
      split at h
      · cases h
      · rename_i hv
        obtain ⟨key, a, -, b⟩ := EcCipher.restore h
          (by simpa [EcCipher.validateHashType] using hv) h1 h2
        exact ⟨key, a, b⟩
    | fromKey key0 h =>
      simp only [EcCipher.createFromKey, Res.ok_bind, EcGroup.checkPrivateKey] at h
      split at h
      · cases h
      · rename_i hv
        split at h
        · cases h
        · rename_i hr
          rw [Res.ok_bind] at h
          obtain ⟨key, a, -, b⟩ := EcCipher.restore h
            (by simpa [EcCipher.validateHashType] using hv) (by omega) (by omega)
          exact ⟨key, a, b⟩
  · intro H fuel seed tag h h0
    obtain ⟨r0, r1, -⟩ := (C21_seed_key_partial E hE H fuel seed tag t c).2 h
    simp only [EcCipher.createWithKeyFromSeed] at h
    split at h
    · simp at h
    split at h
    · simp at h
    rename_i hv
    split at h
    · simp at h
    · rename_i k hk
      simp only [Option.some.injEq, Res.bind_eq_ok] at h
      obtain ⟨k', -, h⟩ := h
      have e := (EcCipher.make_inv h).1
      obtain ⟨key, a, -, b⟩ := EcCipher.restore h
        (by simpa [EcCipher.validateHashType] using hv) (by omega) (by omega)
      exact ⟨key, a, b⟩

/-- **C82**: two ciphers of a curve and hash function export the same bytes only if they are the
same; so the exported bytes are exactly the key. -/
theorem C82_export_injective (E : EcGroup G) (hE : E.Lawful) (t : HashType) (c d : EcCipher G)
    (hc : CipherOf E t c) (hd : CipherOf E t d)
    (h : c.getPrivateKeyBytes = d.getPrivateKeyBytes) : c = d := by
  obtain ⟨k1, a1, b1⟩ := (C82_export_import E hE t c).1 hc
  obtain ⟨k2, a2, b2⟩ := (C82_export_import E hE t d).1 hd
  rw [h, a2, Res.ok.injEq] at a1
  subst a1
  rw [b1, Res.ok.injEq] at b2
  exact b2

/-- The hypotheses are met: a cipher of the toy curve with a fresh key. -/
example : ∃ c, EcCipher.createWithNewKey (.ok toyEc) .sha256 4 = .ok c ∧
    CipherOf toyEc .sha256 c ∧ c.getPrivateKeyBytes = .ok [5] :=
  ⟨_, rfl, .newKey 4 rfl, by decide +kernel⟩

end PJC
