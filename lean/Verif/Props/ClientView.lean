import Verif.Props.Dcr
/-
C107: what the client learns in a whole run.

Specification.  `clientView` is all that the client receives in a run with the random oracle: the
server's first message and its answer, as a function of the server's draws (its key, and the two
Paillier draws `d`) and of the draws of the hash values.  The client's key, its primes and the draws
of its encryptions are fixed: the statement holds for every client.  `commonEntries` lists the common
identifiers with their values and with the ciphertexts the client made for them.
-/
set_option linter.unusedSectionVars false
namespace PJC.Protocol
open PJC.Props PJC.Prob PJC.DJ PJC.Stat

variable {G : Type} [AddCommGroup G] [DecidableEq G]

/-! ### Specification -/

/-- Everything the client receives: the server's first message, and its answer to the client's. -/
def clientView (E : EcGroup G) (flip : G → Bool) {N : Nat} (ids : Fin N → Bytes)
    (own els : List (Fin N)) (vals : List Int) (p q : Nat) (cfg cfg' : ExpCfg) (r1 r2 : ServerRand)
    (k1 : ClientRand) (wc : Draw E) (d : Nat × Nat) (ws : Draw E) (r : Fin N → Draw E) :
    Option (List ServerMsg × List ServerMsg) :=
  match Client.init cfg (.ok (withOracle E ids (hashes E flip r))) (els.map ids) vals p q wc.val with
  | .ok c => (firstRound c
      (Server.init cfg' (.ok (withOracle E ids (hashes E flip r))) (own.map ids))
      { r1 with keyWord := ws.val } k1).map fun x =>
        (serverSends E flip ids own cfg' r1 ws r, reply x.1 (r2.withDraws d) x.2)
  | _ => none

/-- The client's identifiers with value and ciphertext (as a number). -/
def entries (sk : PrivatePaillier) {N : Nat} (els : List (Fin N)) (vals : List Int)
    (draws : Nat → Int × Int) : List (Fin N × Int × Int) :=
  els.zip (vals.mapIdx fun i v => (v, BN.ofBytes (ciphertext sk v (draws i))))

/-- Those of them that the server has. -/
def commonEntries (sk : PrivatePaillier) {N : Nat} (own els : List (Fin N)) (vals : List Int)
    (draws : Nat → Int × Int) : List (Fin N × Int × Int) :=
  (entries sk els vals draws).filter fun t => decide (t.1 ∈ own)

/-- The server's answer, for the draws `d`, the common entries `T` and the modulus `n`. -/
def answer (n : Nat) {τ : Type} (T : List (τ × Int × Int)) (d : Nat × Nat) : List ServerMsg :=
  [.roundTwo ⟨T.length, BN.natToBytes
    (maskOf n d * (T.map fun t => t.2.2).prod % (n : Int) ^ 3).toNat⟩]

/-- A question about hash values and the client's view, as a question about encrypted hashes. -/
def askView (E : EcGroup G) {N : Nat} (own : List (Fin N)) (n : Nat) (T : List (Fin N × Int × Int))
    (S : (Fin N → G) → Option (List ServerMsg × List ServerMsg) → Prop)
    (d : PaillierDraws n) (h e : Fin N → G) : Prop :=
  S h (some (firstMessage E own e, answer n T d.1))

instance (E : EcGroup G) {N : Nat} (own : List (Fin N)) (n : Nat) (T : List (Fin N × Int × Int))
    (S : (Fin N → G) → Option (List ServerMsg × List ServerMsg) → Prop) [∀ h m, Decidable (S h m)]
    (d : PaillierDraws n) (h e : Fin N → G) : Decidable (askView E own n T S d h e) := by
  unfold askView; infer_instance

/-! ### Collisions of the random oracle are unlikely -/

theorem Draw.point_inj {E : EcGroup G} (hE : E.Lawful) {i j : Draw E}
    (h : i.point E = j.point E) : i = j := by
  by_contra hne
  have h0 : ((i.val : Int) - j.val) • E.gen = 0 := by
    simp only [Draw.point] at h
    rw [show ((i.val : Int) - j.val) = (i.val + 1) - (j.val + 1) by ring, sub_zsmul, h]
    exact add_neg_cancel _
  refine hE.zsmul_ne ?_ hE.gen_ne h0
  intro hd
  have h1 := i.isLt
  have h2 := j.isLt
  have h3 : (i.val : Int) - j.val ≠ 0 := fun e => hne (Fin.ext (by omega))
  have := Int.le_of_dvd (abs_pos.2 h3) ((dvd_abs _ _).2 hd)
  rcases abs_cases ((i.val : Int) - j.val) with ⟨e, _⟩ | ⟨e, _⟩ <;> omega

theorem collision_pair (E : EcGroup G) [hE : Fact E.Lawful] (flip : G → Bool) {N : Nat}
    {i j : Fin N} (hij : i ≠ j) :
    prob (fun r : Fin N → Draw E => hashes E flip r i = hashes E flip r j) ≤
      2 / ((E.order - 1 : Nat) : ℚ) := by
  rw [← prob_update i (fun r : Fin N → Draw E => hashes E flip r i = hashes E flip r j)]
  rw [prob_comm (fun (b : Draw E) (r : Fin N → Draw E) =>
    hashes E flip (Function.update r i b) i = hashes E flip (Function.update r i b) j)]
  rw [prob_prod (fun (r : Fin N → Draw E) (b : Draw E) =>
    hashes E flip (Function.update r i b) i = hashes E flip (Function.update r i b) j)]
  apply div_le_of_le_mul₀ (by positivity) (by positivity)
  refine (Finset.sum_le_card_nsmul _ _ (2 / ((E.order - 1 : Nat) : ℚ)) fun r _ => ?_).trans
    (by rw [nsmul_eq_mul, Finset.card_univ, mul_comm])
  unfold prob
  rw [Fintype.card_fin]
  apply div_le_div_of_nonneg_right _ (by positivity)
  have one : ∀ P : G, (Finset.univ.filter fun b : Draw E => b.point E = P).card ≤ 1 := by
    intro P
    refine Finset.card_le_one.2 fun a ha b hb => ?_
    simp only [Finset.mem_filter, Finset.mem_univ, true_and] at ha hb
    exact Draw.point_inj hE.out (ha.trans hb.symm)
  have hsub : (Finset.univ.filter fun b : Draw E =>
      hashes E flip (Function.update r i b) i = hashes E flip (Function.update r i b) j) ⊆
      (Finset.univ.filter fun b : Draw E => b.point E = hashes E flip r j) ∪
      (Finset.univ.filter fun b : Draw E => b.point E = - hashes E flip r j) := by
    intro b hb
    simp only [Finset.mem_filter, Finset.mem_univ, true_and, Finset.mem_union] at hb ⊢
    simp only [hashes, Function.update_self, Function.update_of_ne hij.symm] at hb ⊢
    rw [← hb]
    by_cases hf : flip (b.point E) <;> simp [signed, hf]
  have := (Finset.card_le_card hsub).trans (Finset.card_union_le _ _)
  have h1 := one (hashes E flip r j)
  have h2 := one (- hashes E flip r j)
  exact_mod_cast this.trans (by omega)

/-- Two of `N` identifiers have the same hash value with probability at most `N² / (order - 1)`. -/
theorem collision (E : EcGroup G) [hE : Fact E.Lawful] (flip : G → Bool) {N : Nat} :
    prob (fun r : Fin N → Draw E => ¬ Function.Injective (hashes E flip r)) ≤
      (N : ℚ) ^ 2 / ((E.order - 1 : Nat) : ℚ) := by
  refine (prob_exists_le (Finset.univ.sigma fun j : Fin N => Finset.Iio j)
    (fun (t : (_ : Fin N) × Fin N) (r : Fin N → Draw E) => hashes E flip r t.2 = hashes E flip r t.1)
    _ ?_).trans ?_
  · intro r hr
    simp only [Function.Injective, not_forall] at hr
    obtain ⟨a, b, hab, hne⟩ := hr
    rcases lt_or_gt_of_ne hne with h | h
    · exact ⟨⟨b, a⟩, by simpa using h, hab⟩
    · exact ⟨⟨a, b⟩, by simpa using h, hab.symm⟩
  refine (Finset.sum_le_card_nsmul _ _ (2 / ((E.order - 1 : Nat) : ℚ)) fun t ht =>
    collision_pair E flip (ne_of_lt (by simpa using ht))).trans ?_
  rw [nsmul_eq_mul, Finset.card_sigma, mul_div_assoc']
  apply div_le_div_of_nonneg_right _ (by positivity)
  simp only [Fin.card_Iio]
  rw [Fin.sum_univ_eq_sum_range (fun j => j) N]
  have h3 : (∑ j ∈ Finset.range N, j) * 2 ≤ N ^ 2 := by
    rw [Finset.sum_range_id_mul_two, sq]
    exact Nat.mul_le_mul_left N (Nat.sub_le N 1)
  exact_mod_cast h3

/-! ### The view in closed form -/

theorem clientView_eq {E : EcGroup G} (hE : E.Lawful) (flip : G → Bool) {N : Nat}
    {ids : Fin N → Bytes} (hids : Function.Injective ids) (own els : List (Fin N))
    (hnd : els.Nodup) (vals : List Int) {p q : Nat} (hk : GoodPrimes p q)
    (hlen : vals.length = els.length)
    (hvals : ∀ v ∈ vals, 0 ≤ v ∧ v < ((p * q : Nat) : Int) ^ 2) (cfg cfg' : ExpCfg)
    (r1 r2 : ServerRand) (hr2 : r2.Ok) (k1 : ClientRand) (hk1 : k1.Ok) {sk : PrivatePaillier}
    (hsk : PrivatePaillier.new cfg p q 2 = .ok sk) (wc ws : Draw E) (r : Fin N → Draw E)
    (hinj : Function.Injective (hashes E flip r)) {d : Nat × Nat}
    (hd : d ∈ PaillierDraws (p * q)) :
    clientView E flip ids own els vals p q cfg cfg' r1 r2 k1 wc d ws r =
      some (firstMessage E own fun i => ws.scalar • hashes E flip r i,
        answer (p * q) (commonEntries sk own els vals k1.draws) d) := by
  have hE' := withOracle_lawful hE ids (hashes E flip r)
  have setup : Setup (withOracle E ids (hashes E flip r)) (els.map ids) vals (own.map ids) p q := by
    refine ⟨hE', ?_, ?_, by simpa using hlen, hvals, hk.safe_p, hk.safe_q, hk.gen_p, hk.gen_q,
      hk.two_lt_p, hk.two_lt_q, hk.ne⟩
    · intro a ha
      rw [← List.map_append] at ha
      obtain ⟨i, -, rfl⟩ := List.mem_map.1 ha
      exact ⟨_, withOracle_hash E hids _ i, hashes_ne hE flip r i⟩
    · intro a ha b hb hab
      rw [← List.map_append] at ha hb
      obtain ⟨i, -, rfl⟩ := List.mem_map.1 ha
      obtain ⟨j, -, rfl⟩ := List.mem_map.1 hb
      rw [withOracle_hash E hids, withOracle_hash E hids] at hab
      rw [hinj (Res.ok.inj hab)]
  obtain ⟨Kc, -, hinit⟩ := Client.init_ok hE' cfg (els.map ids) vals p q wc.val
  obtain ⟨s1, m, sk', T0, hf, hsk', ht1, ht2, ht3, ht4, -, hrep⟩ :=
    messages_spec setup (hnd.map hids) cfg cfg' wc.val _ hinit { r1 with keyWord := ws.val } k1 hk1
  rw [hsk] at hsk'
  cases hsk'
  simp only [PaillierDraws, Finset.mem_product, Finset.mem_filter, Finset.mem_range] at hd
  obtain ⟨z, hz, hr⟩ := hrep (r2.withDraws d) hr2.sortClient hr2.sortServer
    (by show Int.gcd (d.1 : Int) ((p * q : Nat) : Int) = 1
        rw [Int.gcd_natCast_natCast]; exact hd.1.2.symm)
    (by show (0 : Int) ≤ (d.2 : Int); omega)
    (by show (d.2 : Int) < ((p * q : Nat) : Int); exact_mod_cast hd.2)
  -- the entries are those of the specification
  have hT : T0 = (entries sk els vals k1.draws).map fun t => (ids t.1, t.2) := by
    have hl : T0.length = els.length := by
      have := congrArg List.length ht2
      simpa using this
    refine List.ext_getElem (by simp [entries, hl, hlen]) fun i h1 h2 => ?_
    have hi : i < els.length := hl ▸ h1
    have hiv : i < vals.length := hlen ▸ hi
    have e1 : T0[i].1 = ids els[i] := by
      have := List.getElem_of_eq ht2 (i := i) (by simpa using h1)
      simpa using this
    have e2 : T0[i].2.1 = vals[i] := by
      have := List.getElem_of_eq ht1 (i := i) (by simpa using h1)
      simpa using congrArg Prod.snd this
    have e3 := ht4 i h1
    have e4 := ht3 T0[i] (List.getElem_mem h1)
    have e5 : BN.ofBytes (ciphertext sk vals[i] (k1.draws i)) = T0[i].2.2 := by
      rw [ciphertext, ← e2, e3]
      dsimp only
      rw [BN.ofBytes_natToBytes]
      omega
    simp only [entries, List.getElem_map, List.getElem_zip, List.getElem_mapIdx, e5]
    rw [← e1, ← e2]
  have hfil : (T0.filter fun t => decide (t.1 ∈ own.map ids)) =
      (commonEntries sk own els vals k1.draws).map fun t => (ids t.1, t.2) := by
    rw [hT, List.filter_map, commonEntries]
    refine congrArg _ (List.filter_congr ?_)
    intro t _
    have := List.mem_map_of_injective hids (a := t.1) (l := own)
    show decide (ids t.1 ∈ own.map ids) = decide (t.1 ∈ own)
    exact decide_eq_decide.2 this
  have hsize : commonSize (els.map ids) (own.map ids) =
      (commonEntries sk own els vals k1.draws).length := by
    have := congrArg List.length hfil
    rw [List.length_map] at this
    rw [← this, commonSize, ← ht2, List.filter_map, List.length_map]
    rfl
  rw [clientView, hinit]
  simp only [hf, Option.map_some, serverSends_eq hE flip hids, hr, hfil, hsize, answer, List.map_map]
  have hz' : z * ((commonEntries sk own els vals k1.draws).map fun t => t.2.2).prod %
      ((p * q : Nat) : Int) ^ 3 =
      maskOf (p * q) d * ((commonEntries sk own els vals k1.draws).map fun t => t.2.2).prod %
      ((p * q : Nat) : Int) ^ 3 := hz.mul_right _
  rw [← hz']
  rfl

theorem prob_of_close {α β : Type} {D : Finset α} {f g : α → β} {num den : Nat} (hden : 0 < den)
    (h : StatClose D f g num den) (S : β → Prop) [DecidablePred S] :
    |prob (fun a : D => S (f a)) - prob (fun a : D => S (g a))| ≤ (num : ℚ) / den := by
  have hc : ∀ T : α → Prop, ∀ [DecidablePred T],
      ((Finset.univ : Finset D).filter fun a : D => T a).card = (D.filter T).card := by
    intro T _
    rw [← Finset.card_map ⟨Subtype.val, Subtype.val_injective⟩]
    congr 1
    ext a
    simp only [Finset.mem_map, Finset.mem_filter, Finset.mem_univ, true_and,
      Function.Embedding.coeFn_mk, Subtype.exists, exists_and_left, exists_prop]
    constructor
    · rintro ⟨b, h1, h2, rfl⟩; exact ⟨h2, h1⟩
    · rintro ⟨h1, h2⟩; exact ⟨a, h2, h1, rfl⟩
  unfold prob
  rw [hc (fun a => S (f a)), hc (fun a => S (g a)), Fintype.card_coe, ← sub_div, abs_div,
    Nat.abs_cast]
  have h' := h S
  have hd : (0 : ℚ) < den := by exact_mod_cast hden
  rcases Nat.eq_zero_or_pos D.card with h0 | h0
  · rw [h0]; simp; positivity
  have hD : (0 : ℚ) < D.card := by exact_mod_cast h0
  rw [div_le_div_iff₀ hD hd]
  exact_mod_cast h'

theorem commonEntries_ct {p q : Nat} (hk : GoodPrimes p q) {cfg : ExpCfg} {sk : PrivatePaillier}
    (hsk : PrivatePaillier.new cfg p q 2 = .ok sk) {N : Nat} (own els : List (Fin N))
    {vals : List Int} (hvals : ∀ v ∈ vals, 0 ≤ v ∧ v < ((p * q : Nat) : Int) ^ 2)
    {draws : Nat → Int × Int} (hd : ∀ i, 0 ≤ (draws i).1 ∧ 0 ≤ (draws i).2) :
    CtI p (p * q) 2 ((commonEntries sk own els vals draws).map fun t => t.2.1).sum
        ((commonEntries sk own els vals draws).map fun t => t.2.2).prod ∧
      CtI q (p * q) 2 ((commonEntries sk own els vals draws).map fun t => t.2.1).sum
        ((commonEntries sk own els vals draws).map fun t => t.2.2).prod := by
  have S := PrivatePaillier.new_good (by norm_num) hsk
  obtain ⟨⟨pk0, hpk0⟩, -⟩ := C11_keys_exist cfg p q 2 1 hk.safe_p hk.safe_q hk.ne hk.two_lt_p
    hk.two_lt_q hk.gen_p hk.gen_q (by norm_num)
  have hct : ∀ t ∈ commonEntries sk own els vals draws, CtN p q 2 t.2.1 t.2.2 := by
    intro t ht
    obtain ⟨i, hi, rfl⟩ := List.mem_iff_getElem.1 (List.mem_filter.1 ht).1
    have hiv : i < vals.length := by
      simp only [entries, List.length_zip, List.length_mapIdx] at hi
      omega
    have hv := hvals _ (List.getElem_mem hiv)
    obtain ⟨c, h1, h2, h3⟩ := ciphertext_ok hk hsk hv.1 hv.2 (hd i)
    simp only [entries, List.getElem_zip, List.getElem_mapIdx, h3, BN.ofBytes_natToBytes]
    rw [Int.toNat_of_nonneg h2]
    exact made_ct (by simp) (PublicPaillier.new_good hpk0) S
      (.privateEncrypt (hd i).1 (hd i).2 h1)
  exact ⟨ct_prod _ _ _ fun t ht => (hct t ht).modP, ct_prod _ _ _ fun t ht => (hct t ht).modQ⟩

/-! ### C107 -/

/-- **C107**, one server.  Whatever question `S` a client asks about the hash values of all
identifiers and everything it receives, it gets the same answer when the server's first message is
made of random points, up to the Diffie-Hellman advantages of explicit algorithms and the
probability that two identifiers have the same hash value. -/
theorem C107_client_view (E : EcGroup G) [hE : Fact E.Lawful] (flip : G → Bool) {N : Nat}
    (ids : Fin N → Bytes) (hids : Function.Injective ids) (own els : List (Fin N))
    (hnd : els.Nodup) (vals : List Int) {p q : Nat} (hk : GoodPrimes p q)
    (hlen : vals.length = els.length)
    (hvals : ∀ v ∈ vals, 0 ≤ v ∧ v < ((p * q : Nat) : Int) ^ 2) (cfg cfg' : ExpCfg)
    (r1 r2 : ServerRand) (hr2 : r2.Ok) (k1 : ClientRand) (hk1 : k1.Ok) (sk : PrivatePaillier)
    (hsk : PrivatePaillier.new cfg p q 2 = .ok sk) (wc : Draw E)
    (S : (Fin N → G) → Option (List ServerMsg × List ServerMsg) → Prop) [∀ h m, Decidable (S h m)] :
    let T := commonEntries sk own els vals k1.draws
    |prob (fun t : PaillierDraws (p * q) × Draw E × (Fin N → Draw E) => S (hashes E flip t.2.2)
        (clientView E flip ids own els vals p q cfg cfg' r1 r2 k1 wc t.1 t.2.1 t.2.2)) -
      prob (fun t : PaillierDraws (p * q) × Coins E N => S (hashes E flip t.2.1)
        (some (firstMessage E own fun i => (t.2.2 i).point E, answer (p * q) T t.1))) -
      ∑ j : Fin N, ddhAdv E (ddhAlgWith E flip (askView E own (p * q) T S) j)| ≤
      (N : ℚ) ^ 2 / ((E.order - 1 : Nat) : ℚ) := by
  intro T
  rw [← encrypted_hashes_with E flip (askView E own (p * q) T S)]
  have npos : 1 < p * q := by
    have := hk.two_lt_p; have := hk.two_lt_q; nlinarith
  have hne : Nonempty (PaillierDraws (p * q)) := ⟨⟨(1, 0), by
    simp only [PaillierDraws, Finset.mem_product, Finset.mem_filter, Finset.mem_range]
    exact ⟨⟨npos, Nat.coprime_one_right _⟩, by omega⟩⟩⟩
  refine le_trans (le_of_eq ?_) ((prob_diff_le
    (S := fun t : PaillierDraws (p * q) × Draw E × (Fin N → Draw E) => S (hashes E flip t.2.2)
        (clientView E flip ids own els vals p q cfg cfg' r1 r2 k1 wc t.1 t.2.1 t.2.2))
    (T := fun t : PaillierDraws (p * q) × Draw E × (Fin N → Draw E) =>
      askView E own (p * q) T S t.1 (hashes E flip t.2.2)
        fun i => t.2.1.scalar • hashes E flip t.2.2 i)
    (B := fun t : PaillierDraws (p * q) × Draw E × (Fin N → Draw E) =>
      ¬ Function.Injective (hashes E flip t.2.2)) ?_).trans ?_)
  · congr 1
    simp only [askView]
    ring
  · rintro ⟨d, ws, r⟩ hb
    rw [not_not] at hb
    simp only [askView, clientView_eq hE.out flip hids own els hnd vals hk hlen hvals cfg cfg' r1 r2
      hr2 k1 hk1 hsk wc ws r hb d.2, T]
  · rw [prob_snd (α := PaillierDraws (p * q)) (fun t : Draw E × (Fin N → Draw E) =>
        ¬ Function.Injective (hashes E flip t.2)),
      prob_snd (α := Draw E) (fun r : Fin N → Draw E => ¬ Function.Injective (hashes E flip r))]
    exact collision E flip

/-- **C107**, two servers.  Two servers with equally many distinct identifiers whose lists give the
client the same size, the same sum modulo `n²` and the same product of Jacobi symbols are not told
apart by any question about everything the client receives, with an advantage above
`2 N δ + 2 N² / (order - 1) + 3 (p + q) / ((p - 1) (q - 1))`. -/
theorem C107_two_servers (E : EcGroup G) [hE : Fact E.Lawful] (flip : G → Bool) {N : Nat}
    (ids : Fin N → Bytes) (hids : Function.Injective ids) (own own' els : List (Fin N))
    (ho : own.Nodup) (ho' : own'.Nodup) (holen : own.length = own'.length)
    (hnd : els.Nodup) (vals : List Int) {p q : Nat} (hk : GoodPrimes p q) (p5 : p ≠ 5) (q5 : q ≠ 5)
    (hlen : vals.length = els.length)
    (hvals : ∀ v ∈ vals, 0 ≤ v ∧ v < ((p * q : Nat) : Int) ^ 2) (cfg cfg' : ExpCfg)
    (r1 r1' r2 r2' : ServerRand) (hr2 : r2.Ok) (hr2' : r2'.Ok) (k1 : ClientRand) (hk1 : k1.Ok)
    (sk : PrivatePaillier) (hsk : PrivatePaillier.new cfg p q 2 = .ok sk) (wc : Draw E)
    (T T' : List (Fin N × Int × Int)) (hT : T = commonEntries sk own els vals k1.draws)
    (hT' : T' = commonEntries sk own' els vals k1.draws)
    (hsize : T.length = T'.length)
    (hsum : (T.map fun t => t.2.1).sum ≡ (T'.map fun t => t.2.1).sum
      [ZMOD ((p * q : Nat) : Int) ^ 2])
    (hsym : (T.map fun t => jacobiSym t.2.2 (p * q)).prod =
      (T'.map fun t => jacobiSym t.2.2 (p * q)).prod)
    (S : (Fin N → G) → Option (List ServerMsg × List ServerMsg) → Prop) [∀ h m, Decidable (S h m)]
    (δ : ℚ)
    (hδ : ∀ j, |ddhAdv E (ddhAlgWith E flip (askView E own (p * q) T S) j)| ≤ δ)
    (hδ' : ∀ j, |ddhAdv E (ddhAlgWith E flip (askView E own' (p * q) T' S) j)| ≤ δ) :
    |prob (fun t : PaillierDraws (p * q) × Draw E × (Fin N → Draw E) => S (hashes E flip t.2.2)
        (clientView E flip ids own els vals p q cfg cfg' r1 r2 k1 wc t.1 t.2.1 t.2.2)) -
      prob (fun t : PaillierDraws (p * q) × Draw E × (Fin N → Draw E) => S (hashes E flip t.2.2)
        (clientView E flip ids own' els vals p q cfg cfg' r1' r2' k1 wc t.1 t.2.1 t.2.2))| ≤
      2 * N * δ + 2 * ((N : ℚ) ^ 2 / ((E.order - 1 : Nat) : ℚ)) +
        ((3 * (p + q) : Nat) : ℚ) / (((p - 1) * (q - 1) : Nat) : ℚ) := by
  have h1 := C107_client_view E flip ids hids own els hnd vals hk hlen hvals cfg cfg' r1 r2 hr2 k1
    hk1 sk hsk wc S
  have h2 := C107_client_view E flip ids hids own' els hnd vals hk hlen hvals cfg cfg' r1' r2' hr2'
    k1 hk1 sk hsk wc S
  simp only [← hT] at h1
  simp only [← hT'] at h2
  obtain ⟨π, hπ⟩ := exists_perm_map ho ho' holen
  have p3 : 3 < p := by
    have := hk.two_lt_p; have := hk.safe_p.2.1; have := hk.safe_p.2.2.two_le; omega
  have q3 : 3 < q := by
    have := hk.two_lt_q; have := hk.safe_q.2.1; have := hk.safe_q.2.2.two_le; omega
  -- the first message
  have first : prob (fun t : PaillierDraws (p * q) × Coins E N => S (hashes E flip t.2.1)
        (some (firstMessage E own fun i => (t.2.2 i).point E, answer (p * q) T t.1))) =
      prob (fun t : PaillierDraws (p * q) × Coins E N => S (hashes E flip t.2.1)
        (some (firstMessage E own' fun i => (t.2.2 i).point E, answer (p * q) T t.1))) := by
    rw [← prob_equiv (Equiv.prodCongr (Equiv.refl (PaillierDraws (p * q)))
      (Equiv.prodCongr (Equiv.refl (Fin N → Draw E)) (Equiv.arrowCongr π (Equiv.refl (Draw E)))))]
    apply prob_congr
    rintro ⟨d, r, c⟩
    have e : (firstMessage E own fun i =>
        ((Equiv.arrowCongr π (Equiv.refl (Draw E))) c i).point E) =
        firstMessage E own' fun i => (c i).point E := by
      simp only [firstMessage, ← hπ, List.map_map]
      congr 2
      refine List.map_congr_left fun i _ => ?_
      simp [Equiv.arrowCongr]
    show S (hashes E flip r) (some (firstMessage E own fun i =>
        ((Equiv.arrowCongr π (Equiv.refl (Draw E))) c i).point E, _)) ↔ _
    rw [e]
    rfl
  -- the answer
  have hclose : StatClose (PaillierDraws (p * q)) (fun d => answer (p * q) T d)
      (fun d => answer (p * q) T' d) (3 * (p + q)) ((p - 1) * (q - 1)) := by
    obtain ⟨c1, c2⟩ := commonEntries_ct hk hsk own els hvals hk1.draws
    obtain ⟨c1', c2'⟩ := commonEntries_ct hk hsk own' els hvals hk1.draws
    rw [← hT] at c1 c2
    rw [← hT'] at c1' c2'
    have dp : ((p : Int)) ^ 2 ∣ ((p * q : Nat) : Int) ^ 2 :=
      pow_dvd_pow_of_dvd (by push_cast; exact Dvd.intro _ rfl) 2
    have dq : ((q : Int)) ^ 2 ∣ ((p * q : Nat) : Int) ^ 2 :=
      pow_dvd_pow_of_dvd (by push_cast; exact Dvd.intro_left _ rfl) 2
    have := masked_close hk.safe_p hk.safe_q p5 q5 p3 q3 hk.ne c1 c2
      (CtI.congr_msg c1' (hsum.symm.of_dvd dp)) (CtI.congr_msg c2' (hsum.symm.of_dvd dq))
      ((jac_prod _ _ T).trans (hsym.trans (jac_prod _ _ T').symm))
    refine this.map (fun x => [.roundTwo ⟨T.length, BN.natToBytes x.toNat⟩]) (fun d _ => rfl)
      (fun d _ => ?_)
    rw [answer, hsize]
  have second : |prob (fun t : PaillierDraws (p * q) × Coins E N => S (hashes E flip t.2.1)
        (some (firstMessage E own' fun i => (t.2.2 i).point E, answer (p * q) T t.1))) -
      prob (fun t : PaillierDraws (p * q) × Coins E N => S (hashes E flip t.2.1)
        (some (firstMessage E own' fun i => (t.2.2 i).point E, answer (p * q) T' t.1)))| ≤
      ((3 * (p + q) : Nat) : ℚ) / (((p - 1) * (q - 1) : Nat) : ℚ) := by
    rw [prob_comm (fun (d : PaillierDraws (p * q)) (t : Coins E N) => S (hashes E flip t.1)
        (some (firstMessage E own' fun i => (t.2 i).point E, answer (p * q) T d))),
      prob_comm (fun (d : PaillierDraws (p * q)) (t : Coins E N) => S (hashes E flip t.1)
        (some (firstMessage E own' fun i => (t.2 i).point E, answer (p * q) T' d)))]
    refine prob_prod_close (S := fun (t : Coins E N) (d : PaillierDraws (p * q)) =>
        S (hashes E flip t.1)
          (some (firstMessage E own' fun i => (t.2 i).point E, answer (p * q) T d)))
      (T := fun (t : Coins E N) (d : PaillierDraws (p * q)) => S (hashes E flip t.1)
          (some (firstMessage E own' fun i => (t.2 i).point E, answer (p * q) T' d)))
      (by positivity) fun t => ?_
    exact prob_of_close (Nat.mul_pos (by omega) (by omega)) hclose fun a => S (hashes E flip t.1)
      (some (firstMessage E own' fun i => (t.2 i).point E, a))
  have bound : ∀ f : Fin N → ℚ, (∀ j, |f j| ≤ δ) → |∑ j, f j| ≤ N * δ := by
    intro f hf
    refine (Finset.abs_sum_le_sum_abs _ _).trans ?_
    refine (Finset.sum_le_sum fun j _ => hf j).trans ?_
    simp
  have b1 := abs_le.1 (bound _ hδ)
  have b2 := abs_le.1 (bound _ hδ')
  rw [first] at h1
  have b3 := abs_le.1 h1
  have b4 := abs_le.1 h2
  have b5 := abs_le.1 second
  rw [abs_le]
  constructor <;> linarith [b1.1, b1.2, b2.1, b2.2, b3.1, b3.2, b4.1, b4.2, b5.1, b5.2]

/-! ### Examples -/

/-- A client with the identifiers 0 and 1, both with the value 5, and two servers, one with 0 and 2,
the other with 1 and 3: size, sum and symbol agree, although the ciphertexts are different ones. -/
example (cfg : ExpCfg) (r1 : ServerRand) (sk : PrivatePaillier)
    (hsk : PrivatePaillier.new cfg (7 : Nat) (11 : Nat) 2 = .ok sk) (wc : Draw toyEc) :
    let k1 : ClientRand := ⟨fun i => if i = 0 then (3, 1) else (1, 1), insSort⟩
    let S : (Fin 4 → _) → Option (List ServerMsg × List ServerMsg) → Prop :=
      fun h m => m.map (fun m => m.1.length) = some (h 0).val
    |prob (fun t : PaillierDraws (7 * 11) × Draw toyEc × (Fin 4 → Draw toyEc) =>
        S (hashes toyEc toyFlip t.2.2) (clientView toyEc toyFlip (toyIds 4) [0, 2] [0, 1] [5, 5] 7 11
          cfg cfg r1 toyServerRand k1 wc t.1 t.2.1 t.2.2)) -
      prob (fun t : PaillierDraws (7 * 11) × Draw toyEc × (Fin 4 → Draw toyEc) =>
        S (hashes toyEc toyFlip t.2.2) (clientView toyEc toyFlip (toyIds 4) [1, 3] [0, 1] [5, 5] 7 11
          cfg cfg r1 toyServerRand k1 wc t.1 t.2.1 t.2.2))| ≤
      2 * (4 : Nat) * 1 + 2 * (((4 : Nat) : ℚ) ^ 2 / ((toyEc.order - 1 : Nat) : ℚ)) +
        ((3 * (7 + 11) : Nat) : ℚ) / (((7 - 1) * (11 - 1) : Nat) : ℚ) := by
  intro k1 S
  have hk1 : k1.Ok := ⟨fun i => by simp only [k1]; split <;> norm_num, insSort_isSort⟩
  obtain ⟨c, h1, h2, h3⟩ := ciphertext_ok goodPrimes_toy hsk (v := 5) (by norm_num) (by norm_num)
    (d := (3, 1)) (by norm_num)
  obtain ⟨c', h1', h2', h3'⟩ := ciphertext_ok goodPrimes_toy hsk (v := 5) (by norm_num)
    (by norm_num) (d := (1, 1)) (by norm_num)
  have j1 := jac_privateEncrypt (by norm_num) hsk (by norm_num) (by norm_num) h1
  have j2 := jac_privateEncrypt (by norm_num) hsk (by norm_num) (by norm_num) h1'
  refine C107_two_servers toyEc toyFlip (toyIds 4) toyIds_inj [0, 2] [1, 3] [0, 1] (by decide)
    (by decide) rfl (by decide) [5, 5] goodPrimes_toy (by norm_num) (by norm_num) rfl (by decide) cfg
    cfg r1 r1 toyServerRand toyServerRand toyServerRand_ok toyServerRand_ok k1 hk1 sk hsk wc
    [(0, 5, c)] [(1, 5, c')] ?_ ?_ rfl rfl ?_ S 1 (fun _ => abs_prob_sub_le_one _ _)
    (fun _ => abs_prob_sub_le_one _ _)
  · simp [commonEntries, entries, k1, h3, BN.ofBytes_natToBytes, h2]
  · simp [commonEntries, entries, k1, h3', BN.ofBytes_natToBytes, h2']
  · simp only [List.map_cons, List.map_nil, List.prod_cons, List.prod_nil, mul_one, j1, j2]
    decide

end PJC.Protocol
