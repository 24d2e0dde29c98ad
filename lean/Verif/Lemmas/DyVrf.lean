import Verif.Lemmas.Sigma
import Verif.Lemmas.Wire
set_option linter.unusedSectionVars false
/-
Facts about the model of the verifiable random function.
-/
namespace PJC.Vrf
open PJC.Ped
variable {G : Type} [AddCommGroup G] [DecidableEq G]

/-- A VRF object made by `Create` over a curve of prime order, with a Pedersen object made by
`Create` over a modulus above 1 with invertible generators; the parameters are small enough for a
shift amount to be an `int` and for the hash function to be defined. -/
structure Made (gs : List Int) (h n : Int) (v : DyVrf G) : Prop where
  lawful : v.group.Lawful
  n1 : 1 < n
  gsU : ∀ g ∈ gs, Int.gcd g n = 1
  hU : Int.gcd h n = 1
  ped : ∃ k, 1 ≤ k ∧ k < 31 ∧ Ped.create gs h n k = .ok v.ped
  made : Vrf.create v.params v.group v.ped = .ok v
  chal : v.params.chal ≤ 129000
  sec : v.params.sec ≤ 2 ^ 30

variable {gs : List Int} {h n : Int} {v : DyVrf G}

theorem Made.good (M : Made gs h n v) : Ped.Good v.ped gs h n := by
  obtain ⟨k, h1, h2, h3⟩ := M.ped
  obtain ⟨p, hp, G⟩ := create_good (gs := gs) (h := h) M.n1 h1 h2
  rw [h3] at hp
  cases hp
  exact G

theorem Made.pos (M : Made gs h n v) : 0 < v.params.sec ∧ 0 < v.params.chal ∧ v.base ≠ 0 := by
  have hm := M.made
  unfold create at hm
  split at hm
  · cases hm
  · rename_i h1
    split at hm
    · cases hm
    · rename_i h2
      simp only [Res.bind_eq_ok, Res.pure_eq, Res.ok.injEq] at hm
      obtain ⟨g, hg, hv⟩ := hm
      have : v.base = g := by rw [← hv]
      refine ⟨by omega, by omega, ?_⟩
      rw [this]
      unfold EcGroup.createECPoint at hg
      split at hg
      · cases hg
      · split at hg
        · cases hg
        · cases hg
          assumption

theorem Made.order_pos (M : Made gs h n v) : (0 : Int) < v.group.order := by
  have := M.lawful.prime.pos
  omega

theorem Made.shift (M : Made gs h n v) (a : Int) (b : Int) (hb : b = v.params.chal + v.params.sec ∨
    b = v.params.sec + v.params.chal ∨ b = v.params.chal + v.params.sec + 1) :
    lshift64 a b = .ok (a * 2 ^ b.toNat) := by
  have := M.pos
  have := M.chal
  have := M.sec
  exact lshift64_ok a (by omega) (by omega)

theorem Made.chalBound (M : Made gs h n v) :
    lshift64 1 v.params.chal = .ok (2 ^ v.params.chal.toNat) := by
  have := M.pos
  have := M.chal
  rw [lshift64_ok 1 (by omega) (by omega), one_mul]

theorem Made.keyChallenge_ok (M : Made gs h n v) (H : Hashes) (pk d : Bytes) :
    ∃ c, keyChallenge H v pk d = .ok c ∧ 0 ≤ c ∧ c < 2 ^ v.params.chal.toNat := by
  have := M.pos
  have := M.chal
  unfold keyChallenge
  rw [M.chalBound, Res.ok_bind]
  exact oracle_ok H _ (by omega)

theorem Made.applyChallenge_ok (M : Made gs h n v) (H : Hashes) {es : List G} (pk : Bytes)
    {cm : Int} (hcm : 0 ≤ cm) (he : ∀ e ∈ es, e ≠ 0) (d : Bytes) (ds : List Bytes) :
    ∃ c, applyChallenge H v es pk cm d ds = .ok c ∧ 0 ≤ c ∧ c < 2 ^ v.params.chal.toNat := by
  have := M.pos
  have := M.chal
  obtain ⟨bs, hbs, _⟩ := ecPoints_round M.lawful he
  obtain ⟨b, hb, _⟩ := toBytes_parse hcm
  unfold applyChallenge
  rw [hb, Res.ok_bind, hbs, Res.ok_bind, M.chalBound, Res.ok_bind]
  exact oracle_ok H _ (by omega)

theorem replicate_linear (N : Nat) (d k c : Int) :
    addVec (List.replicate N d) ((List.replicate N k).map (c * ·)) = List.replicate N (d + c * k) := by
  apply ext_getD
  · simp [addVec_length]
  · intro i hi
    have hi : i < N := by simpa [addVec_length] using hi
    rw [addVec_getD, getD_map_mul, getD_replicate hi, getD_replicate hi, getD_replicate hi]

theorem Made.replicate_valid (gs : List Int) {k r : Int} (hk : 0 ≤ k) (hr : 0 ≤ r) :
    Valid gs (List.replicate gs.length k) r :=
  ⟨by simp, fun m hm => by rw [List.eq_of_mem_replicate hm]; exact hk, hr⟩

end PJC.Vrf
