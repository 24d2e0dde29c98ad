import Verif.Lemmas.NistCerts
/-
NIST P-224, P-256 and P-384 satisfy what the theorems assume of a curve.
-/
namespace PJC
namespace Curve

/-- What the certificates establish about a curve. -/
structure Certified (c : Curve) (p : Nat) (gx gy : Int) : Prop where
  proper : c.Proper p
  smooth : c.Smooth p
  prime : c.order.Prime
  base : c.onCurve gx gy = true
  no_root : [Fact p.Prime] → ∀ x : ZMod p, x ^ 3 + c.a * x + c.b ≠ 0
  card : [Fact p.Prime] → Nat.card (c.W p).Point = c.order

theorem has_of_toPoint {p : Nat} [Fact p.Prime] {c : Curve} {x y : Int} {P : (c.W p).Point}
    (h : c.toPoint? p (.aff x y) = some P) : c.Has P x y := by
  simp only [toPoint?] at h
  split at h
  · rename_i hn
    exact ⟨hn, (Option.some.inj h).symm⟩
  · cases h

theorem certified {c : Curve} {p : Nat} {gx gy y' : Int} (hc : c.Proper p) (hs : c.Smooth p)
    (hn : c.order.Prime) (hG : c.onCurve gx gy = true) (steps : List Step)
    (hrun : runChain c.p c.a gx gy steps (gx, gy) = some (gx, y')) (hy : (y' + gy) % c.p = 0)
    (hk : chainScalar steps 1 + 1 = c.order) (fuel : Nat) (hf : p < 2 ^ fuel) (w : Quad)
    (hw : mulQ c.p c.a c.b (powQ c.p c.a c.b fuel (0, 1, 0) p - (0, 1, 0)) w = (1, 0, 0))
    (hbig : 2 * p + 1 < 3 * c.order) : c.Certified p gx gy := by
  rw [hc.hp] at hrun hy hw
  have hroot : [Fact p.Prime] → ∀ x : ZMod p, x ^ 3 + c.a * x + c.b ≠ 0 :=
    no_root_of_cert fuel hf w hw
  refine ⟨hc, hs, hn, hG, hroot, ?_⟩
  intro _
  obtain ⟨G, h1, -, h0⟩ := toPoint_of_onCurve hc hs hG
  have := order_smul_of_chain G (has_of_toPoint h1) steps hrun hy
  rw [hk] at this
  exact card_of_certs hc hroot G h0 hn this hbig

theorem smooth_of {c : Curve} {p : Nat} (h : (4 * c.a ^ 3 + 27 * c.b ^ 2) % (p : Int) ≠ 0) :
    c.Smooth p := fun hd => h (Int.emod_eq_zero_of_dvd hd)

theorem p224_certified : p224.Certified q224 p224Gx p224Gy :=
  certified ⟨by decide +kernel, prime_p224, by decide +kernel, by decide +kernel⟩ (smooth_of (by decide +kernel))
    prime_n224 (by decide +kernel) p224Chain p224_chain (by decide +kernel) p224_scalar 224
    (by decide +kernel) _ p224_cubic (by decide +kernel)

theorem p256_certified : p256.Certified q256 p256Gx p256Gy :=
  certified ⟨by decide +kernel, prime_p256, by decide +kernel, by decide +kernel⟩ (smooth_of (by decide +kernel))
    prime_n256 (by decide +kernel) p256Chain p256_chain (by decide +kernel) p256_scalar 256
    (by decide +kernel) _ p256_cubic (by decide +kernel)

theorem p384_certified : p384.Certified q384 p384Gx p384Gy :=
  certified ⟨by decide +kernel, prime_p384, by decide +kernel, by decide +kernel⟩ (smooth_of (by decide +kernel))
    prime_n384 (by decide +kernel) p384Chain p384_chain (by decide +kernel) p384_scalar 384
    (by decide +kernel) _ p384_cubic (by decide +kernel)

end Curve
end PJC
