import Mathlib.NumberTheory.LucasPrimality
import Verif.Props.Weierstrass
/-
Primality of the field primes and group orders of NIST P-224, P-256 and P-384, by Pratt
certificates: a primitive root and the factors of p - 1, checked by the kernel.
-/
namespace PJC

open Curve in
/-- Pratt's criterion, with powers computed by squaring. -/
theorem prime_of_cert (p a : Nat) (fs : List (Nat × Nat)) (fuel : Nat) (hp : 1 < p)
    (hf : p < 2 ^ fuel) (hfs : ∀ q ∈ fs, q.1.Prime)
    (hprod : (fs.map fun q => q.1 ^ q.2).prod = p - 1) (h1 : powMod p fuel a (p - 1) = 1)
    (h2 : ∀ q ∈ fs, powMod p fuel a ((p - 1) / q.1) ≠ 1) : p.Prime := by
  have key : ∀ e, e ≤ p - 1 → ((a : ZMod p) ^ e = 1 ↔ powMod p fuel a e = 1) := by
    intro e he
    rw [powMod_eq p fuel a e (by omega)]
    rw [← Nat.cast_pow, ← Nat.cast_one (R := ZMod p), ZMod.natCast_eq_natCast_iff,
      Nat.ModEq, Nat.mod_eq_of_lt hp]
  refine lucas_primality p a ((key _ (le_refl _)).2 h1) ?_
  intro q hq hd
  rw [← hprod] at hd
  obtain ⟨r, hr, hqr⟩ := (Prime.dvd_prod_iff hq.prime).1 hd
  obtain ⟨⟨q', e⟩, hmem, rfl⟩ := List.mem_map.1 hr
  have : q = q' := (Nat.prime_dvd_prime_iff_eq hq (hfs _ hmem)).1 (hq.dvd_of_dvd_pow hqr)
  subst this
  rw [Ne, key _ (Nat.div_le_self _ _)]
  exact h2 _ hmem

theorem prime_6700417 : Nat.Prime
    6700417 :=
  prime_of_cert _ 5 [(2, 7),
      (3, 1),
      (17449, 1)] 23 (by norm_num) (by decide +kernel)
    (by simp only [List.forall_mem_cons]; exact ⟨(by norm_num), (by norm_num), (by norm_num), List.forall_mem_nil _⟩)
    (by norm_num) (by decide +kernel) (by decide +kernel)

theorem prime_204061199 : Nat.Prime
    204061199 :=
  prime_of_cert _ 11 [(2, 1),
      (11, 1),
      (23, 1),
      (107, 1),
      (3769, 1)] 28 (by norm_num) (by decide +kernel)
    (by simp only [List.forall_mem_cons]; exact ⟨(by norm_num), (by norm_num), (by norm_num), (by norm_num), (by norm_num), List.forall_mem_nil _⟩)
    (by norm_num) (by decide +kernel) (by decide +kernel)

theorem prime_34282281433 : Nat.Prime
    34282281433 :=
  prime_of_cert _ 17 [(2, 3),
      (3, 1),
      (7, 1),
      (204061199, 1)] 35 (by norm_num) (by decide +kernel)
    (by simp only [List.forall_mem_cons]; exact ⟨(by norm_num), (by norm_num), (by norm_num), prime_204061199, List.forall_mem_nil _⟩)
    (by norm_num) (by decide +kernel) (by decide +kernel)

theorem prime_66417393611 : Nat.Prime
    66417393611 :=
  prime_of_cert _ 6 [(2, 1),
      (5, 1),
      (53, 1),
      (173, 1),
      (197, 1),
      (3677, 1)] 36 (by norm_num) (by decide +kernel)
    (by simp only [List.forall_mem_cons]; exact ⟨(by norm_num), (by norm_num), (by norm_num), (by norm_num), (by norm_num), (by norm_num), List.forall_mem_nil _⟩)
    (by norm_num) (by decide +kernel) (by decide +kernel)

theorem prime_11290956913871 : Nat.Prime
    11290956913871 :=
  prime_of_cert _ 13 [(2, 1),
      (5, 1),
      (17, 1),
      (66417393611, 1)] 44 (by norm_num) (by decide +kernel)
    (by simp only [List.forall_mem_cons]; exact ⟨(by norm_num), (by norm_num), (by norm_num), prime_66417393611, List.forall_mem_nil _⟩)
    (by norm_num) (by decide +kernel) (by decide +kernel)

theorem prime_46076956964474543 : Nat.Prime
    46076956964474543 :=
  prime_of_cert _ 5 [(2, 1),
      (23, 1),
      (18169, 1),
      (78283, 1),
      (704251, 1)] 56 (by norm_num) (by decide +kernel)
    (by simp only [List.forall_mem_cons]; exact ⟨(by norm_num), (by norm_num), (by norm_num), (by norm_num), (by norm_num), List.forall_mem_nil _⟩)
    (by norm_num) (by decide +kernel) (by decide +kernel)

theorem prime_774023187263532362759620327192479577272145303 : Nat.Prime
    774023187263532362759620327192479577272145303 :=
  prime_of_cert _ 3 [(2, 1),
      (3, 2),
      (2411, 1),
      (34282281433, 1),
      (11290956913871, 1),
      (46076956964474543, 1)] 150 (by norm_num) (by decide +kernel)
    (by simp only [List.forall_mem_cons]; exact ⟨(by norm_num), (by norm_num), (by norm_num), prime_34282281433, prime_11290956913871, prime_46076956964474543, List.forall_mem_nil _⟩)
    (by norm_num) (by decide +kernel) (by decide +kernel)

theorem prime_835945042244614951780389953367877943453916927241 : Nat.Prime
    835945042244614951780389953367877943453916927241 :=
  prime_of_cert _ 11 [(2, 3),
      (3, 3),
      (5, 1),
      (774023187263532362759620327192479577272145303, 1)] 160 (by norm_num) (by decide +kernel)
    (by simp only [List.forall_mem_cons]; exact ⟨(by norm_num), (by norm_num), (by norm_num), prime_774023187263532362759620327192479577272145303, List.forall_mem_nil _⟩)
    (by norm_num) (by decide +kernel) (by decide +kernel)

theorem prime_p256 : Nat.Prime
    115792089210356248762697446949407573530086143415290314195533631308867097853951 :=
  prime_of_cert _ 6 [(2, 1),
      (3, 1),
      (5, 2),
      (17, 1),
      (257, 1),
      (641, 1),
      (1531, 1),
      (65537, 1),
      (490463, 1),
      (6700417, 1),
      (835945042244614951780389953367877943453916927241, 1)] 256 (by norm_num) (by decide +kernel)
    (by simp only [List.forall_mem_cons]; exact ⟨(by norm_num), (by norm_num), (by norm_num), (by norm_num), (by norm_num), (by norm_num), (by norm_num), (by norm_num), (by norm_num), prime_6700417, prime_835945042244614951780389953367877943453916927241, List.forall_mem_nil _⟩)
    (by norm_num) (by decide +kernel) (by decide +kernel)

theorem prime_9350987 : Nat.Prime
    9350987 :=
  prime_of_cert _ 2 [(2, 1),
      (17, 1),
      (229, 1),
      (1201, 1)] 24 (by norm_num) (by decide +kernel)
    (by simp only [List.forall_mem_cons]; exact ⟨(by norm_num), (by norm_num), (by norm_num), (by norm_num), List.forall_mem_nil _⟩)
    (by norm_num) (by decide +kernel) (by decide +kernel)

theorem prime_187019741 : Nat.Prime
    187019741 :=
  prime_of_cert _ 2 [(2, 2),
      (5, 1),
      (9350987, 1)] 28 (by norm_num) (by decide +kernel)
    (by simp only [List.forall_mem_cons]; exact ⟨(by norm_num), (by norm_num), prime_9350987, List.forall_mem_nil _⟩)
    (by norm_num) (by decide +kernel) (by decide +kernel)

theorem prime_311245691 : Nat.Prime
    311245691 :=
  prime_of_cert _ 2 [(2, 1),
      (5, 1),
      (7, 1),
      (17, 1),
      (29, 2),
      (311, 1)] 29 (by norm_num) (by decide +kernel)
    (by simp only [List.forall_mem_cons]; exact ⟨(by norm_num), (by norm_num), (by norm_num), (by norm_num), (by norm_num), (by norm_num), List.forall_mem_nil _⟩)
    (by norm_num) (by decide +kernel) (by decide +kernel)

theorem prime_622491383 : Nat.Prime
    622491383 :=
  prime_of_cert _ 5 [(2, 1),
      (311245691, 1)] 30 (by norm_num) (by decide +kernel)
    (by simp only [List.forall_mem_cons]; exact ⟨(by norm_num), prime_311245691, List.forall_mem_nil _⟩)
    (by norm_num) (by decide +kernel) (by decide +kernel)

theorem prime_3969899 : Nat.Prime
    3969899 :=
  prime_of_cert _ 2 [(2, 1),
      (19, 1),
      (104471, 1)] 22 (by norm_num) (by decide +kernel)
    (by simp only [List.forall_mem_cons]; exact ⟨(by norm_num), (by norm_num), (by norm_num), List.forall_mem_nil _⟩)
    (by norm_num) (by decide +kernel) (by decide +kernel)

theorem prime_1002328039319 : Nat.Prime
    1002328039319 :=
  prime_of_cert _ 19 [(2, 1),
      (126241, 1),
      (3969899, 1)] 40 (by norm_num) (by decide +kernel)
    (by simp only [List.forall_mem_cons]; exact ⟨(by norm_num), (by norm_num), prime_3969899, List.forall_mem_nil _⟩)
    (by norm_num) (by decide +kernel) (by decide +kernel)

theorem prime_191039911 : Nat.Prime
    191039911 :=
  prime_of_cert _ 3 [(2, 1),
      (3, 1),
      (5, 1),
      (41, 1),
      (155317, 1)] 28 (by norm_num) (by decide +kernel)
    (by simp only [List.forall_mem_cons]; exact ⟨(by norm_num), (by norm_num), (by norm_num), (by norm_num), (by norm_num), List.forall_mem_nil _⟩)
    (by norm_num) (by decide +kernel) (by decide +kernel)

theorem prime_208150935158385979 : Nat.Prime
    208150935158385979 :=
  prime_of_cert _ 2 [(2, 1),
      (3, 1),
      (11, 1),
      (43, 1),
      (127, 1),
      (3023, 1),
      (191039911, 1)] 58 (by norm_num) (by decide +kernel)
    (by simp only [List.forall_mem_cons]; exact ⟨(by norm_num), (by norm_num), (by norm_num), (by norm_num), (by norm_num), (by norm_num), prime_191039911, List.forall_mem_nil _⟩)
    (by norm_num) (by decide +kernel) (by decide +kernel)

theorem prime_2624747550333869278416773953 : Nat.Prime
    2624747550333869278416773953 :=
  prime_of_cert _ 7 [(2, 6),
      (3, 2),
      (1297, 1),
      (16879, 1),
      (208150935158385979, 1)] 92 (by norm_num) (by decide +kernel)
    (by simp only [List.forall_mem_cons]; exact ⟨(by norm_num), (by norm_num), (by norm_num), (by norm_num), prime_208150935158385979, List.forall_mem_nil _⟩)
    (by norm_num) (by decide +kernel) (by decide +kernel)

theorem prime_n256 : Nat.Prime
    115792089210356248762697446949407573529996955224135760342422259061068512044369 :=
  prime_of_cert _ 7 [(2, 4),
      (3, 1),
      (71, 1),
      (131, 1),
      (373, 1),
      (3407, 1),
      (17449, 1),
      (38189, 1),
      (187019741, 1),
      (622491383, 1),
      (1002328039319, 1),
      (2624747550333869278416773953, 1)] 256 (by norm_num) (by decide +kernel)
    (by simp only [List.forall_mem_cons]; exact ⟨(by norm_num), (by norm_num), (by norm_num), (by norm_num), (by norm_num), (by norm_num), (by norm_num), (by norm_num), prime_187019741, prime_622491383, prime_1002328039319, prime_2624747550333869278416773953, List.forall_mem_nil _⟩)
    (by norm_num) (by decide +kernel) (by decide +kernel)

theorem prime_2862218959 : Nat.Prime
    2862218959 :=
  prime_of_cert _ 3 [(2, 1),
      (3, 1),
      (157, 1),
      (1373, 1),
      (2213, 1)] 32 (by norm_num) (by decide +kernel)
    (by simp only [List.forall_mem_cons]; exact ⟨(by norm_num), (by norm_num), (by norm_num), (by norm_num), (by norm_num), List.forall_mem_nil _⟩)
    (by norm_num) (by decide +kernel) (by decide +kernel)

theorem prime_807145746439 : Nat.Prime
    807145746439 :=
  prime_of_cert _ 3 [(2, 1),
      (3, 1),
      (47, 1),
      (2862218959, 1)] 40 (by norm_num) (by decide +kernel)
    (by simp only [List.forall_mem_cons]; exact ⟨(by norm_num), (by norm_num), (by norm_num), prime_2862218959, List.forall_mem_nil _⟩)
    (by norm_num) (by decide +kernel) (by decide +kernel)

theorem prime_513928823 : Nat.Prime
    513928823 :=
  prime_of_cert _ 5 [(2, 1),
      (11, 1),
      (59, 1),
      (599, 1),
      (661, 1)] 29 (by norm_num) (by decide +kernel)
    (by simp only [List.forall_mem_cons]; exact ⟨(by norm_num), (by norm_num), (by norm_num), (by norm_num), (by norm_num), List.forall_mem_nil _⟩)
    (by norm_num) (by decide +kernel) (by decide +kernel)

theorem prime_53448597593 : Nat.Prime
    53448597593 :=
  prime_of_cert _ 3 [(2, 3),
      (13, 1),
      (513928823, 1)] 36 (by norm_num) (by decide +kernel)
    (by simp only [List.forall_mem_cons]; exact ⟨(by norm_num), (by norm_num), prime_513928823, List.forall_mem_nil _⟩)
    (by norm_num) (by decide +kernel) (by decide +kernel)

theorem prime_1357291859799823621 : Nat.Prime
    1357291859799823621 :=
  prime_of_cert _ 2 [(2, 2),
      (3, 1),
      (5, 1),
      (67, 1),
      (6317, 1),
      (53448597593, 1)] 61 (by norm_num) (by decide +kernel)
    (by simp only [List.forall_mem_cons]; exact ⟨(by norm_num), (by norm_num), (by norm_num), (by norm_num), (by norm_num), prime_53448597593, List.forall_mem_nil _⟩)
    (by norm_num) (by decide +kernel) (by decide +kernel)

theorem prime_105957871 : Nat.Prime
    105957871 :=
  prime_of_cert _ 3 [(2, 1),
      (3, 1),
      (5, 1),
      (19, 1),
      (211, 1),
      (881, 1)] 27 (by norm_num) (by decide +kernel)
    (by simp only [List.forall_mem_cons]; exact ⟨(by norm_num), (by norm_num), (by norm_num), (by norm_num), (by norm_num), (by norm_num), List.forall_mem_nil _⟩)
    (by norm_num) (by decide +kernel) (by decide +kernel)

theorem prime_246608641 : Nat.Prime
    246608641 :=
  prime_of_cert _ 19 [(2, 8),
      (3, 2),
      (5, 1),
      (21407, 1)] 28 (by norm_num) (by decide +kernel)
    (by simp only [List.forall_mem_cons]; exact ⟨(by norm_num), (by norm_num), (by norm_num), (by norm_num), List.forall_mem_nil _⟩)
    (by norm_num) (by decide +kernel) (by decide +kernel)

theorem prime_529709925838459440593 : Nat.Prime
    529709925838459440593 :=
  prime_of_cert _ 3 [(2, 4),
      (7, 1),
      (181, 1),
      (105957871, 1),
      (246608641, 1)] 69 (by norm_num) (by decide +kernel)
    (by simp only [List.forall_mem_cons]; exact ⟨(by norm_num), (by norm_num), (by norm_num), prime_105957871, prime_246608641, List.forall_mem_nil _⟩)
    (by norm_num) (by decide +kernel) (by decide +kernel)

theorem prime_6051631 : Nat.Prime
    6051631 :=
  prime_of_cert _ 6 [(2, 1),
      (3, 1),
      (5, 1),
      (13, 1),
      (59, 1),
      (263, 1)] 23 (by norm_num) (by decide +kernel)
    (by simp only [List.forall_mem_cons]; exact ⟨(by norm_num), (by norm_num), (by norm_num), (by norm_num), (by norm_num), (by norm_num), List.forall_mem_nil _⟩)
    (by norm_num) (by decide +kernel) (by decide +kernel)

theorem prime_532247449 : Nat.Prime
    532247449 :=
  prime_of_cert _ 7 [(2, 3),
      (3, 1),
      (61, 1),
      (363557, 1)] 29 (by norm_num) (by decide +kernel)
    (by simp only [List.forall_mem_cons]; exact ⟨(by norm_num), (by norm_num), (by norm_num), (by norm_num), List.forall_mem_nil _⟩)
    (by norm_num) (by decide +kernel) (by decide +kernel)

theorem prime_44925942675193 : Nat.Prime
    44925942675193 :=
  prime_of_cert _ 5 [(2, 3),
      (3, 1),
      (3517, 1),
      (532247449, 1)] 46 (by norm_num) (by decide +kernel)
    (by simp only [List.forall_mem_cons]; exact ⟨(by norm_num), (by norm_num), (by norm_num), prime_532247449, List.forall_mem_nil _⟩)
    (by norm_num) (by decide +kernel) (by decide +kernel)

theorem prime_35581458644053887931343 : Nat.Prime
    35581458644053887931343 :=
  prime_of_cert _ 5 [(2, 1),
      (17, 1),
      (41, 1),
      (568151, 1),
      (44925942675193, 1)] 75 (by norm_num) (by decide +kernel)
    (by simp only [List.forall_mem_cons]; exact ⟨(by norm_num), (by norm_num), (by norm_num), (by norm_num), prime_44925942675193, List.forall_mem_nil _⟩)
    (by norm_num) (by decide +kernel) (by decide +kernel)

theorem prime_23964610537191310276190549303 : Nat.Prime
    23964610537191310276190549303 :=
  prime_of_cert _ 5 [(2, 1),
      (336757, 1),
      (35581458644053887931343, 1)] 95 (by norm_num) (by decide +kernel)
    (by simp only [List.forall_mem_cons]; exact ⟨(by norm_num), (by norm_num), prime_35581458644053887931343, List.forall_mem_nil _⟩)
    (by norm_num) (by decide +kernel) (by decide +kernel)

theorem prime_862725979338887169942859774909 : Nat.Prime
    862725979338887169942859774909 :=
  prime_of_cert _ 2 [(2, 2),
      (3, 2),
      (23964610537191310276190549303, 1)] 100 (by norm_num) (by decide +kernel)
    (by simp only [List.forall_mem_cons]; exact ⟨(by norm_num), (by norm_num), prime_23964610537191310276190549303, List.forall_mem_nil _⟩)
    (by norm_num) (by decide +kernel) (by decide +kernel)

theorem prime_20705423504133292078628634597817 : Nat.Prime
    20705423504133292078628634597817 :=
  prime_of_cert _ 5 [(2, 3),
      (3, 1),
      (862725979338887169942859774909, 1)] 105 (by norm_num) (by decide +kernel)
    (by simp only [List.forall_mem_cons]; exact ⟨(by norm_num), (by norm_num), prime_862725979338887169942859774909, List.forall_mem_nil _⟩)
    (by norm_num) (by decide +kernel) (by decide +kernel)

theorem prime_413244619895455989650825325680172591660047 : Nat.Prime
    413244619895455989650825325680172591660047 :=
  prime_of_cert _ 5 [(2, 1),
      (17, 1),
      (97, 1),
      (6051631, 1),
      (20705423504133292078628634597817, 1)] 139 (by norm_num) (by decide +kernel)
    (by simp only [List.forall_mem_cons]; exact ⟨(by norm_num), (by norm_num), (by norm_num), prime_6051631, prime_20705423504133292078628634597817, List.forall_mem_nil _⟩)
    (by norm_num) (by decide +kernel) (by decide +kernel)

theorem prime_12397338596863679689524759770405177749801411 : Nat.Prime
    12397338596863679689524759770405177749801411 :=
  prime_of_cert _ 2 [(2, 1),
      (3, 1),
      (5, 1),
      (413244619895455989650825325680172591660047, 1)] 144 (by norm_num) (by decide +kernel)
    (by simp only [List.forall_mem_cons]; exact ⟨(by norm_num), (by norm_num), (by norm_num), prime_413244619895455989650825325680172591660047, List.forall_mem_nil _⟩)
    (by norm_num) (by decide +kernel) (by decide +kernel)

theorem prime_19173790298027098165721053155794528970226934547887232785722672956982046098136719667167519737147526097 : Nat.Prime
    19173790298027098165721053155794528970226934547887232785722672956982046098136719667167519737147526097 :=
  prime_of_cert _ 3 [(2, 4),
      (11, 3),
      (8389, 1),
      (38557, 1),
      (312289, 1),
      (1357291859799823621, 1),
      (529709925838459440593, 1),
      (12397338596863679689524759770405177749801411, 1)] 334 (by norm_num) (by decide +kernel)
    (by simp only [List.forall_mem_cons]; exact ⟨(by norm_num), (by norm_num), (by norm_num), (by norm_num), (by norm_num), prime_1357291859799823621, prime_529709925838459440593, prime_12397338596863679689524759770405177749801411, List.forall_mem_nil _⟩)
    (by norm_num) (by decide +kernel) (by decide +kernel)

theorem prime_p384 : Nat.Prime
    39402006196394479212279040100143613805079739270465446667948293404245721771496870329047266088258938001861606973112319 :=
  prime_of_cert _ 19 [(2, 1),
      (19, 1),
      (67, 1),
      (807145746439, 1),
      (19173790298027098165721053155794528970226934547887232785722672956982046098136719667167519737147526097, 1)] 384 (by norm_num) (by decide +kernel)
    (by simp only [List.forall_mem_cons]; exact ⟨(by norm_num), (by norm_num), (by norm_num), prime_807145746439, prime_19173790298027098165721053155794528970226934547887232785722672956982046098136719667167519737147526097, List.forall_mem_nil _⟩)
    (by norm_num) (by decide +kernel) (by decide +kernel)

theorem prime_154950581 : Nat.Prime
    154950581 :=
  prime_of_cert _ 2 [(2, 2),
      (5, 1),
      (17, 1),
      (455737, 1)] 28 (by norm_num) (by decide +kernel)
    (by simp only [List.forall_mem_cons]; exact ⟨(by norm_num), (by norm_num), (by norm_num), (by norm_num), List.forall_mem_nil _⟩)
    (by norm_num) (by decide +kernel) (by decide +kernel)

theorem prime_290064143 : Nat.Prime
    290064143 :=
  prime_of_cert _ 5 [(2, 1),
      (79, 1),
      (491, 1),
      (3739, 1)] 29 (by norm_num) (by decide +kernel)
    (by simp only [List.forall_mem_cons]; exact ⟨(by norm_num), (by norm_num), (by norm_num), (by norm_num), List.forall_mem_nil _⟩)
    (by norm_num) (by decide +kernel) (by decide +kernel)

theorem prime_120699720968197491947347 : Nat.Prime
    120699720968197491947347 :=
  prime_of_cert _ 3 [(2, 1),
      (3, 1),
      (13, 1),
      (34429, 1),
      (154950581, 1),
      (290064143, 1)] 77 (by norm_num) (by decide +kernel)
    (by simp only [List.forall_mem_cons]; exact ⟨(by norm_num), (by norm_num), (by norm_num), (by norm_num), prime_154950581, prime_290064143, List.forall_mem_nil _⟩)
    (by norm_num) (by decide +kernel) (by decide +kernel)

theorem prime_1124679999981664229965379347 : Nat.Prime
    1124679999981664229965379347 :=
  prime_of_cert _ 2 [(2, 1),
      (3, 1),
      (1553, 1),
      (120699720968197491947347, 1)] 90 (by norm_num) (by decide +kernel)
    (by simp only [List.forall_mem_cons]; exact ⟨(by norm_num), (by norm_num), (by norm_num), prime_120699720968197491947347, List.forall_mem_nil _⟩)
    (by norm_num) (by decide +kernel) (by decide +kernel)

theorem prime_1276987 : Nat.Prime
    1276987 :=
  prime_of_cert _ 2 [(2, 1),
      (3, 1),
      (29, 1),
      (41, 1),
      (179, 1)] 21 (by norm_num) (by decide +kernel)
    (by simp only [List.forall_mem_cons]; exact ⟨(by norm_num), (by norm_num), (by norm_num), (by norm_num), (by norm_num), List.forall_mem_nil _⟩)
    (by norm_num) (by decide +kernel) (by decide +kernel)

theorem prime_1436833069313 : Nat.Prime
    1436833069313 :=
  prime_of_cert _ 3 [(2, 8),
      (16979, 1),
      (330563, 1)] 41 (by norm_num) (by decide +kernel)
    (by simp only [List.forall_mem_cons]; exact ⟨(by norm_num), (by norm_num), (by norm_num), List.forall_mem_nil _⟩)
    (by norm_num) (by decide +kernel) (by decide +kernel)

theorem prime_8463023 : Nat.Prime
    8463023 :=
  prime_of_cert _ 5 [(2, 1),
      (113, 1),
      (37447, 1)] 24 (by norm_num) (by decide +kernel)
    (by simp only [List.forall_mem_cons]; exact ⟨(by norm_num), (by norm_num), (by norm_num), List.forall_mem_nil _⟩)
    (by norm_num) (by decide +kernel) (by decide +kernel)

theorem prime_9863677 : Nat.Prime
    9863677 :=
  prime_of_cert _ 5 [(2, 2),
      (3, 2),
      (311, 1),
      (881, 1)] 24 (by norm_num) (by decide +kernel)
    (by simp only [List.forall_mem_cons]; exact ⟨(by norm_num), (by norm_num), (by norm_num), (by norm_num), List.forall_mem_nil _⟩)
    (by norm_num) (by decide +kernel) (by decide +kernel)

theorem prime_37344768852931 : Nat.Prime
    37344768852931 :=
  prime_of_cert _ 3 [(2, 1),
      (3, 1),
      (5, 1),
      (7, 1),
      (11, 2),
      (149, 1),
      (9863677, 1)] 46 (by norm_num) (by decide +kernel)
    (by simp only [List.forall_mem_cons]; exact ⟨(by norm_num), (by norm_num), (by norm_num), (by norm_num), (by norm_num), (by norm_num), prime_9863677, List.forall_mem_nil _⟩)
    (by norm_num) (by decide +kernel) (by decide +kernel)

theorem prime_55942463741690639 : Nat.Prime
    55942463741690639 :=
  prime_of_cert _ 7 [(2, 1),
      (7, 1),
      (107, 1),
      (37344768852931, 1)] 56 (by norm_num) (by decide +kernel)
    (by simp only [List.forall_mem_cons]; exact ⟨(by norm_num), (by norm_num), (by norm_num), prime_37344768852931, List.forall_mem_nil _⟩)
    (by norm_num) (by decide +kernel) (by decide +kernel)

theorem prime_272109983 : Nat.Prime
    272109983 :=
  prime_of_cert _ 5 [(2, 1),
      (19, 1),
      (73, 1),
      (233, 1),
      (421, 1)] 29 (by norm_num) (by decide +kernel)
    (by simp only [List.forall_mem_cons]; exact ⟨(by norm_num), (by norm_num), (by norm_num), (by norm_num), (by norm_num), List.forall_mem_nil _⟩)
    (by norm_num) (by decide +kernel) (by decide +kernel)

theorem prime_228572385721 : Nat.Prime
    228572385721 :=
  prime_of_cert _ 23 [(2, 3),
      (3, 1),
      (5, 1),
      (7, 1),
      (272109983, 1)] 38 (by norm_num) (by decide +kernel)
    (by simp only [List.forall_mem_cons]; exact ⟨(by norm_num), (by norm_num), (by norm_num), (by norm_num), prime_272109983, List.forall_mem_nil _⟩)
    (by norm_num) (by decide +kernel) (by decide +kernel)

theorem prime_23314383343543 : Nat.Prime
    23314383343543 :=
  prime_of_cert _ 3 [(2, 1),
      (3, 1),
      (17, 1),
      (228572385721, 1)] 45 (by norm_num) (by decide +kernel)
    (by simp only [List.forall_mem_cons]; exact ⟨(by norm_num), (by norm_num), (by norm_num), prime_228572385721, List.forall_mem_nil _⟩)
    (by norm_num) (by decide +kernel) (by decide +kernel)

theorem prime_426632512014427833817 : Nat.Prime
    426632512014427833817 :=
  prime_of_cert _ 11 [(2, 3),
      (3, 1),
      (13, 1),
      (89, 1),
      (659, 1),
      (23314383343543, 1)] 69 (by norm_num) (by decide +kernel)
    (by simp only [List.forall_mem_cons]; exact ⟨(by norm_num), (by norm_num), (by norm_num), (by norm_num), (by norm_num), prime_23314383343543, List.forall_mem_nil _⟩)
    (by norm_num) (by decide +kernel) (by decide +kernel)

theorem prime_1495199339761412565498084319 : Nat.Prime
    1495199339761412565498084319 :=
  prime_of_cert _ 6 [(2, 1),
      (3, 3),
      (64901, 1),
      (426632512014427833817, 1)] 91 (by norm_num) (by decide +kernel)
    (by simp only [List.forall_mem_cons]; exact ⟨(by norm_num), (by norm_num), (by norm_num), prime_426632512014427833817, List.forall_mem_nil _⟩)
    (by norm_num) (by decide +kernel) (by decide +kernel)

theorem prime_17942392077136950785977011829 : Nat.Prime
    17942392077136950785977011829 :=
  prime_of_cert _ 6 [(2, 2),
      (3, 1),
      (1495199339761412565498084319, 1)] 94 (by norm_num) (by decide +kernel)
    (by simp only [List.forall_mem_cons]; exact ⟨(by norm_num), (by norm_num), prime_1495199339761412565498084319, List.forall_mem_nil _⟩)
    (by norm_num) (by decide +kernel) (by decide +kernel)

theorem prime_1059392654943455286185473617842338478315215895509773412096307 : Nat.Prime
    1059392654943455286185473617842338478315215895509773412096307 :=
  prime_of_cert _ 2 [(2, 1),
      (251, 1),
      (248431, 1),
      (8463023, 1),
      (55942463741690639, 1),
      (17942392077136950785977011829, 1)] 200 (by norm_num) (by decide +kernel)
    (by simp only [List.forall_mem_cons]; exact ⟨(by norm_num), (by norm_num), (by norm_num), prime_8463023, prime_55942463741690639, prime_17942392077136950785977011829, List.forall_mem_nil _⟩)
    (by norm_num) (by decide +kernel) (by decide +kernel)

theorem prime_3055465788140352002733946906144561090641249606160407884365391979704929268480326390471 : Nat.Prime
    3055465788140352002733946906144561090641249606160407884365391979704929268480326390471 :=
  prime_of_cert _ 12 [(2, 1),
      (3, 1),
      (5, 1),
      (151, 1),
      (347, 1),
      (1276987, 1),
      (1436833069313, 1),
      (1059392654943455286185473617842338478315215895509773412096307, 1)] 281 (by norm_num) (by decide +kernel)
    (by simp only [List.forall_mem_cons]; exact ⟨(by norm_num), (by norm_num), (by norm_num), (by norm_num), (by norm_num), prime_1276987, prime_1436833069313, prime_1059392654943455286185473617842338478315215895509773412096307, List.forall_mem_nil _⟩)
    (by norm_num) (by decide +kernel) (by decide +kernel)

theorem prime_n384 : Nat.Prime
    39402006196394479212279040100143613805079739270465446667946905279627659399113263569398956308152294913554433653942643 :=
  prime_of_cert _ 2 [(2, 1),
      (3, 2),
      (7, 2),
      (13, 1),
      (1124679999981664229965379347, 1),
      (3055465788140352002733946906144561090641249606160407884365391979704929268480326390471, 1)] 384 (by norm_num) (by decide +kernel)
    (by simp only [List.forall_mem_cons]; exact ⟨(by norm_num), (by norm_num), (by norm_num), (by norm_num), prime_1124679999981664229965379347, prime_3055465788140352002733946906144561090641249606160407884365391979704929268480326390471, List.forall_mem_nil _⟩)
    (by norm_num) (by decide +kernel) (by decide +kernel)

theorem prime_2998279 : Nat.Prime
    2998279 :=
  prime_of_cert _ 3 [(2, 1),
      (3, 2),
      (166571, 1)] 22 (by norm_num) (by decide +kernel)
    (by simp only [List.forall_mem_cons]; exact ⟨(by norm_num), (by norm_num), (by norm_num), List.forall_mem_nil _⟩)
    (by norm_num) (by decide +kernel) (by decide +kernel)

theorem prime_67280421310721 : Nat.Prime
    67280421310721 :=
  prime_of_cert _ 3 [(2, 8),
      (5, 1),
      (47, 1),
      (373, 1),
      (2998279, 1)] 46 (by norm_num) (by decide +kernel)
    (by simp only [List.forall_mem_cons]; exact ⟨(by norm_num), (by norm_num), (by norm_num), (by norm_num), prime_2998279, List.forall_mem_nil _⟩)
    (by norm_num) (by decide +kernel) (by decide +kernel)

theorem prime_p224 : Nat.Prime
    26959946667150639794667015087019630673557916260026308143510066298881 :=
  prime_of_cert _ 22 [(2, 96),
      (3, 1),
      (5, 1),
      (17, 1),
      (257, 1),
      (641, 1),
      (65537, 1),
      (274177, 1),
      (6700417, 1),
      (67280421310721, 1)] 224 (by norm_num) (by decide +kernel)
    (by simp only [List.forall_mem_cons]; exact ⟨(by norm_num), (by norm_num), (by norm_num), (by norm_num), (by norm_num), (by norm_num), (by norm_num), (by norm_num), prime_6700417, prime_67280421310721, List.forall_mem_nil _⟩)
    (by norm_num) (by decide +kernel) (by decide +kernel)

theorem prime_13928737 : Nat.Prime
    13928737 :=
  prime_of_cert _ 15 [(2, 5),
      (3, 1),
      (145091, 1)] 24 (by norm_num) (by decide +kernel)
    (by simp only [List.forall_mem_cons]; exact ⟨(by norm_num), (by norm_num), (by norm_num), List.forall_mem_nil _⟩)
    (by norm_num) (by decide +kernel) (by decide +kernel)

theorem prime_11105363 : Nat.Prime
    11105363 :=
  prime_of_cert _ 2 [(2, 1),
      (509, 1),
      (10909, 1)] 24 (by norm_num) (by decide +kernel)
    (by simp only [List.forall_mem_cons]; exact ⟨(by norm_num), (by norm_num), (by norm_num), List.forall_mem_nil _⟩)
    (by norm_num) (by decide +kernel) (by decide +kernel)

theorem prime_821796863 : Nat.Prime
    821796863 :=
  prime_of_cert _ 5 [(2, 1),
      (37, 1),
      (11105363, 1)] 30 (by norm_num) (by decide +kernel)
    (by simp only [List.forall_mem_cons]; exact ⟨(by norm_num), (by norm_num), prime_11105363, List.forall_mem_nil _⟩)
    (by norm_num) (by decide +kernel) (by decide +kernel)

theorem prime_432621809776543 : Nat.Prime
    432621809776543 :=
  prime_of_cert _ 3 [(2, 1),
      (3, 1),
      (87739, 1),
      (821796863, 1)] 49 (by norm_num) (by decide +kernel)
    (by simp only [List.forall_mem_cons]; exact ⟨(by norm_num), (by norm_num), (by norm_num), prime_821796863, List.forall_mem_nil _⟩)
    (by norm_num) (by decide +kernel) (by decide +kernel)

theorem prime_136401162692544977256234449 : Nat.Prime
    136401162692544977256234449 :=
  prime_of_cert _ 3 [(2, 4),
      (31, 1),
      (20599, 1),
      (30859, 1),
      (432621809776543, 1)] 87 (by norm_num) (by decide +kernel)
    (by simp only [List.forall_mem_cons]; exact ⟨(by norm_num), (by norm_num), (by norm_num), (by norm_num), prime_432621809776543, List.forall_mem_nil _⟩)
    (by norm_num) (by decide +kernel) (by decide +kernel)

theorem prime_34646440928557194402992574983797 : Nat.Prime
    34646440928557194402992574983797 :=
  prime_of_cert _ 2 [(2, 2),
      (3, 1),
      (61, 1),
      (347, 1),
      (136401162692544977256234449, 1)] 105 (by norm_num) (by decide +kernel)
    (by simp only [List.forall_mem_cons]; exact ⟨(by norm_num), (by norm_num), (by norm_num), (by norm_num), prime_136401162692544977256234449, List.forall_mem_nil _⟩)
    (by norm_num) (by decide +kernel) (by decide +kernel)

theorem prime_375503554633724504423937478103159147573209 : Nat.Prime
    375503554633724504423937478103159147573209 :=
  prime_of_cert _ 19 [(2, 3),
      (3, 1),
      (2707, 1),
      (166823, 1),
      (34646440928557194402992574983797, 1)] 139 (by norm_num) (by decide +kernel)
    (by simp only [List.forall_mem_cons]; exact ⟨(by norm_num), (by norm_num), (by norm_num), (by norm_num), prime_34646440928557194402992574983797, List.forall_mem_nil _⟩)
    (by norm_num) (by decide +kernel) (by decide +kernel)

theorem prime_50520606258875818707470860153287666700917696099933389351507 : Nat.Prime
    50520606258875818707470860153287666700917696099933389351507 :=
  prime_of_cert _ 2 [(2, 1),
      (89, 1),
      (631, 1),
      (85999, 1),
      (13928737, 1),
      (375503554633724504423937478103159147573209, 1)] 196 (by norm_num) (by decide +kernel)
    (by simp only [List.forall_mem_cons]; exact ⟨(by norm_num), (by norm_num), (by norm_num), (by norm_num), prime_13928737, prime_375503554633724504423937478103159147573209, List.forall_mem_nil _⟩)
    (by norm_num) (by decide +kernel) (by decide +kernel)

theorem prime_n224 : Nat.Prime
    26959946667150639794667015087019625940457807714424391721682722368061 :=
  prime_of_cert _ 2 [(2, 2),
      (3, 6),
      (5, 1),
      (17, 1),
      (2153, 1),
      (50520606258875818707470860153287666700917696099933389351507, 1)] 224 (by norm_num) (by decide +kernel)
    (by simp only [List.forall_mem_cons]; exact ⟨(by norm_num), (by norm_num), (by norm_num), (by norm_num), (by norm_num), prime_50520606258875818707470860153287666700917696099933389351507, List.forall_mem_nil _⟩)
    (by norm_num) (by decide +kernel) (by decide +kernel)

end PJC
