import Verif.Lemmas.BbCommit
import Verif.Props.CamenischShoup
set_option linter.unusedSectionVars false
/-
The request half of the oblivious signature: what the generator returns, and that the verifier
recomputes the same first message.
-/
namespace PJC.Bb
open PJC.DJ PJC.Ped PJC.Props

/-! ### Serialization as plain functions -/

def encB (x : Int) : Bytes := BN.natToBytes x.toNat

def vecB (l : List Int) : List Bytes := l.map encB

def ctB (c : CsCt) : CsCtProto := ⟨encB c.u, vecB c.es⟩

theorem toBytes_encB {x : Int} (h : 0 ≤ x) : BN.toBytes x = .ok (encB x) := BN.toBytes_of_nonneg h

theorem ofBytes_encB {x : Int} (h : 0 ≤ x) : BN.ofBytes (encB x) = x := by
  unfold encB
  rw [BN.ofBytes_natToBytes, Int.toNat_of_nonneg h]

theorem toProto_vecB {l : List Int} (h : ∀ x ∈ l, 0 ≤ x) : bigNumVectorToProto l = .ok (vecB l) :=
  mapM_eq_map (fun x hx => toBytes_encB (h x hx))

theorem parse_vecB {l : List Int} (h : ∀ x ∈ l, 0 ≤ x) : parseBigNumVectorProto (vecB l) = l := by
  unfold parseBigNumVectorProto vecB
  rw [List.map_map]
  conv_rhs => rw [← List.map_id l]
  apply List.map_congr_left
  intro x hx
  exact ofBytes_encB (h x hx)

theorem vecB_length (l : List Int) : (vecB l).length = l.length := by simp [vecB]

theorem Wf.toProto {M : Int} {L : Nat} {c : CsCt} (w : Wf M L c) :
    Cs.ciphertextToProto c = .ok (ctB c) := by
  unfold Cs.ciphertextToProto
  rw [toBytes_encB w.u0, Res.ok_bind, toProto_vecB (fun e he => (w.es e he).1)]
  rfl

theorem Wf.parse {cfg : ExpCfg} {pk : CsPublic} {N s : Nat} {g : Int} {ys : List Int}
    (G : Cs.PubGood cfg pk N s g ys) {c : CsCt} (w : Wf ((N : Int) ^ (s + 1)) ys.length c) :
    Cs.parseCiphertextProto pk (ctB c) = .ok c := by
  unfold Cs.parseCiphertextProto ctB
  simp only [ofBytes_encB w.u0, parse_vecB (fun e he => (w.es e he).1), G.hmod, G.hlen, w.len]
  have h1 : ¬ ((N : Int) ^ (s + 1) ≤ c.u ∨ c.u < 0) := by have := w.u0; have := w.uM; omega
  have h2 : c.es.any (fun e => decide ((N : Int) ^ (s + 1) ≤ e ∨ e < 0)) = false := by
    simp only [List.any_eq_false, decide_eq_true_eq]
    intro e he
    have := w.es e he
    omega
  rw [if_neg h1, if_neg (by omega), h2]
  rfl

theorem Wf.toProtos {M : Int} {L : Nat} {l : List CsCt} (w : ∀ c ∈ l, Wf M L c) :
    l.mapM Cs.ciphertextToProto = .ok (l.map ctB) :=
  mapM_eq_map (fun c hc => (w c hc).toProto)

theorem Wf.parses {cfg : ExpCfg} {pk : CsPublic} {N s : Nat} {g : Int} {ys : List Int}
    (G : Cs.PubGood cfg pk N s g ys) {l : List CsCt}
    (w : ∀ c ∈ l, Wf ((N : Int) ^ (s + 1)) ys.length c) :
    (l.map ctB).mapM (Cs.parseCiphertextProto pk) = .ok l := by
  induction l with
  | nil => rfl
  | cons c l ih =>
    rw [List.map_cons, List.mapM_cons, (w c (by simp)).parse G, Res.ok_bind,
      ih (fun x hx => w x (by simp [hx]))]
    rfl

variable {G : Type} [AddCommGroup G] [DecidableEq G]

/-- An oblivious signature object made by `Create` over a curve of prime order, with a commitment
object made by its `Create` over a modulus above 1 with invertible generators and an encryption
object made by its constructor over a modulus above 1 with an invertible public key; the parameters
are small enough for the shift amounts to be an `int` and for the hash function to be defined. -/
structure Made (gs : List Int) (h n : Int) (N s : Nat) (g : Int) (ys : List Int) (v : BbSig G) :
    Prop where
  lawful : v.group.Lawful
  n1 : 1 < n
  gsU : ∀ g ∈ gs, Int.gcd g n = 1
  hU : Int.gcd h n = 1
  ped : ∃ k, 1 ≤ k ∧ k < 31 ∧ Ped.create gs h n k = .ok v.ped
  N1 : 1 < N
  gU : Int.gcd g N = 1
  ysU : ∀ y ∈ ys, Int.gcd y N = 1
  ysne : ys ≠ []
  cs : ∃ cfg, Cs.newPublic cfg N s g ys = .ok v.cs
  made : create v.params v.group v.cs v.ped = .ok v
  chal : v.params.chal ≤ 129000
  sec : v.params.sec ≤ 2 ^ 28

variable {gs : List Int} {h n : Int} {N s : Nat} {g : Int} {ys : List Int} {v : BbSig G}

theorem Made.good (M : Made gs h n N s g ys v) : Ped.Good v.ped gs h n := by
  obtain ⟨k, h1, h2, h3⟩ := M.ped
  obtain ⟨p, hp, G⟩ := create_good (gs := gs) (h := h) M.n1 h1 h2
  rw [h3] at hp
  cases hp
  exact G

theorem Made.pub (M : Made gs h n N s g ys v) : ∃ cfg, Cs.PubGood cfg v.cs N s g ys := by
  obtain ⟨cfg, hc⟩ := M.cs
  exact ⟨cfg, Cs.newPublic_good (by have := M.N1; omega) hc⟩

theorem Made.units (M : Made gs h n N s g ys v) : Units ((N : Int) ^ (s + 1)) N g ys := by
  have : (0 : Int) < N := by have := M.N1; omega
  exact ⟨by positivity, gcd_modulus (gcd_one_add _) _, gcd_modulus M.gU _,
    fun y hy => gcd_modulus (M.ysU y hy) _⟩

theorem Made.n0 (M : Made gs h n N s g ys v) : 0 < n := by have := M.n1; omega

theorem Made.order (M : Made gs h n N s g ys v) : (2 : Int) ≤ v.group.order := by
  have := M.lawful.prime.two_le
  omega

theorem Made.len0 (M : Made gs h n N s g ys v) : 0 < ys.length :=
  List.length_pos_iff.2 M.ysne

theorem Made.create_facts (M : Made gs h n N s g ys v) : 0 < v.params.sec ∧ 0 < v.params.chal ∧
    v.base ≠ 0 ∧
    2 ^ (2 * v.params.chal + 2 * v.params.sec + 1).toNat * (v.group.order : Int) * v.group.order *
      v.group.order ≤ (N : Int) ^ s ∧
    2 ^ (2 * v.params.chal + 2 * v.params.sec + 1).toNat * (v.group.order : Int) * v.group.order *
      v.group.order ≤ n := by
  obtain ⟨cfg, P⟩ := M.pub
  have hm := M.made
  have hc := M.chal
  have hs := M.sec
  unfold create at hm
  split at hm
  · cases hm
  · rename_i h1
    split at hm
    · cases hm
    · rename_i h2
      unfold betasBound at hm
      rw [lshift64_ok 1 (by omega) (by omega), one_mul] at hm
      simp only [Res.ok_bind, Res.pure_eq, P.hnToS, M.good.n_eq] at hm
      split at hm
      · cases hm
      · rename_i h3
        split at hm
        · cases hm
        · rename_i h4
          simp only [Res.bind_eq_ok, Res.ok.injEq] at hm
          obtain ⟨g, hg, hv⟩ := hm
          have : v.base = g := by rw [← hv]
          refine ⟨by omega, by omega, ?_, by omega, by omega⟩
          rw [this]
          unfold EcGroup.createECPoint at hg
          split at hg
          · cases hg
          · split at hg
            · cases hg
            · rename_i hne
              cases hg
              exact hne

theorem Made.sec0 (M : Made gs h n N s g ys v) : 0 < v.params.sec := M.create_facts.1
theorem Made.chal0 (M : Made gs h n N s g ys v) : 0 < v.params.chal := M.create_facts.2.1
theorem Made.base0 (M : Made gs h n N s g ys v) : v.base ≠ 0 := M.create_facts.2.2.1

/-- `challenge_length_bits + security_parameter`. -/
def tBits (v : BbSig G) : Nat := (v.params.chal + v.params.sec).toNat

theorem Made.shift_t (M : Made gs h n N s g ys v) (a : Int) :
    lshift64 a (v.params.chal + v.params.sec) = .ok (a * 2 ^ tBits v) := by
  have := M.sec0; have := M.chal0; have := M.chal; have := M.sec
  exact lshift64_ok a (by omega) (by omega)

theorem Made.shift_t1 (M : Made gs h n N s g ys v) (a : Int) :
    lshift64 a (v.params.chal + v.params.sec + 1) = .ok (a * 2 ^ (tBits v + 1)) := by
  have := M.sec0; have := M.chal0; have := M.chal; have := M.sec
  rw [lshift64_ok a (by omega) (by omega)]
  congr 3
  unfold tBits; omega

theorem Made.shift_2t (M : Made gs h n N s g ys v) (a : Int) :
    lshift64 a (2 * v.params.chal + 2 * v.params.sec) = .ok (a * 2 ^ (2 * tBits v)) := by
  have := M.sec0; have := M.chal0; have := M.chal; have := M.sec
  rw [lshift64_ok a (by omega) (by omega)]
  congr 3
  unfold tBits; omega

theorem Made.shift_2t1 (M : Made gs h n N s g ys v) (a : Int) :
    lshift64 a (2 * v.params.chal + 2 * v.params.sec + 1) = .ok (a * 2 ^ (2 * tBits v + 1)) := by
  have := M.sec0; have := M.chal0; have := M.chal; have := M.sec
  rw [lshift64_ok a (by omega) (by omega)]
  congr 3
  unfold tBits; omega

theorem Made.bound (M : Made gs h n N s g ys v) :
    2 ^ (2 * tBits v + 1) * (v.group.order : Int) ^ 3 ≤ (N : Int) ^ s := by
  have h1 := M.create_facts.2.2.2.1
  have := M.sec0; have := M.chal0
  have e : (2 * v.params.chal + 2 * v.params.sec + 1).toNat = 2 * tBits v + 1 := by
    unfold tBits; omega
  rw [e] at h1
  calc _ = 2 ^ (2 * tBits v + 1) * (v.group.order : Int) * v.group.order * v.group.order := by ring
    _ ≤ _ := h1

theorem Made.chal_lt (M : Made gs h n N s g ys v) :
    (2 : Int) ^ v.params.chal.toNat * 2 ≤ 2 ^ tBits v := by
  have := M.sec0; have := M.chal0
  rw [← pow_succ]
  exact pow_le_pow_right₀ (by norm_num) (by unfold tBits; omega)

theorem Made.chalBound (M : Made gs h n N s g ys v) :
    lshift64 1 v.params.chal = .ok (2 ^ v.params.chal.toNat) := by
  have := M.chal0
  have := M.chal
  rw [lshift64_ok 1 (by omega) (by omega), one_mul]

theorem Made.requestChallenge_ok (M : Made gs h n N s g ys v) (H : Hashes) (st : ReqStatement)
    (m : BbReqMessage1) :
    ∃ c, requestChallenge H v st m = .ok c ∧ 0 ≤ c ∧ c < 2 ^ v.params.chal.toNat := by
  have := M.chal0
  have := M.chal
  unfold requestChallenge
  rw [M.chalBound, Res.ok_bind]
  exact oracle_ok H _ (by omega)

theorem randLessThan_eq (w : Nat) {b : Int} (hb : 0 < b) :
    Ctx.randLessThan w b = .ok ((w : Int) % b) := by
  simp [Ctx.randLessThan, not_le.2 hb]

/-- A vector of draws below a bound. -/
def drawP (k : Nat) (b : Int) (draw : Nat → Nat) : List Int :=
  (List.range k).map (fun i => (draw i : Int) % b)

theorem drawList_ok {b : Int} (hb : 0 < b) (k : Nat) (draw : Nat → Nat) :
    drawList k b draw = .ok (drawP k b draw) :=
  mapM_eq_map (fun i _ => randLessThan_eq (draw i) hb)

theorem drawP_length (k : Nat) (b : Int) (draw : Nat → Nat) : (drawP k b draw).length = k := by
  simp [drawP]

theorem drawP_bounds {b : Int} (hb : 0 < b) {k : Nat} {draw : Nat → Nat} :
    ∀ x ∈ drawP k b draw, 0 ≤ x ∧ x < b := by
  intro x hx
  obtain ⟨i, _, rfl⟩ := List.mem_map.1 hx
  exact ⟨Int.emod_nonneg _ hb.ne', Int.emod_lt_of_pos _ hb⟩

theorem drawP_ok {b : Int} (hb : 0 < b) (k : Nat) (draw : Nat → Nat) :
    (drawP k b draw).length = k ∧ ∀ x ∈ drawP k b draw, 0 ≤ x :=
  ⟨drawP_length _ _ _, fun x hx => (drawP_bounds hb x hx).1⟩

/-! ### Keys -/

/-- The ciphertexts of a public key: `k` in each slot. -/
def keyCts (M N g : Int) (ys : List Int) (k : Int) (draw : Nat → Int) : List CsCt :=
  (List.range ys.length).map (fun i => encP M N g ys (slot ys.length i k) (draw i))

theorem keyCts_wf {M N g : Int} {ys : List Int} (U : Units M N g ys) (k : Int) (draw : Nat → Int) :
    ∀ c ∈ keyCts M N g ys k draw, Wf M ys.length c := by
  intro c hc
  obtain ⟨i, _, rfl⟩ := List.mem_map.1 hc
  exact Wf.enc U.pos U.hN U.hg U.hys _ _

theorem keyCts_length (M N g : Int) (ys : List Int) (k : Int) (draw : Nat → Int) :
    (keyCts M N g ys k draw).length = ys.length := by simp [keyCts]

/-- Draws that `RelativelyPrimeRandomLessThan` can return. -/
def DrawsOk (N k : Nat) (draw : Nat → Int) : Prop :=
  ∀ i < k, 0 ≤ draw i ∧ Int.gcd (draw i) N = 1

theorem encrypt_ok {cfg : ExpCfg} {pk : CsPublic} (P : Cs.PubGood cfg pk N s g ys) {ms : List Int}
    {r : Int} (hms : ms.length ≤ ys.length) (hm0 : ∀ m ∈ ms, 0 ≤ m) (hr : 0 ≤ r)
    (hrn : Int.gcd r N = 1) :
    Cs.encrypt pk ms r = .ok (encP ((N : Int) ^ (s + 1)) N g ys ms r) := by
  unfold Cs.encrypt Cs.encryptAndGetRand
  have : ms.any (fun m => decide (m < 0)) = false := by
    simp only [List.any_eq_false, decide_eq_true_eq]
    intro m hm
    have := hm0 m hm
    omega
  rw [this, encryptWithRand_ok P hms hm0 hr (.inl hrn)]
  rfl

theorem Made.generateKeys_ok (M : Made gs h n N s g ys v) (wk wy : Nat) {drawK drawY : Nat → Int}
    (hk : DrawsOk N ys.length drawK) (hy : DrawsOk N ys.length drawY) :
    ∃ k y : Int, 1 ≤ k ∧ k < v.group.order ∧ 1 ≤ y ∧ y < v.group.order ∧
      generateKeys v wk wy drawK drawY =
        .ok (⟨(keyCts ((N : Int) ^ (s + 1)) N g ys k drawK).map ctB,
              (keyCts ((N : Int) ^ (s + 1)) N g ys y drawY).map ctB⟩, ⟨encB k, encB y⟩) := by
  obtain ⟨cfg, P⟩ := M.pub
  have U := M.units
  obtain ⟨k, ek, hk1, hk2⟩ := M.lawful.generatePrivateKey_spec wk
  obtain ⟨y, ey, hy1, hy2⟩ := M.lawful.generatePrivateKey_spec wy
  refine ⟨k, y, hk1, hk2, hy1, hy2, ?_⟩
  unfold generateKeys
  have hA : (List.range v.cs.len).mapM (encryptKeyAt v.cs k y drawK drawY) =
      .ok ((List.range ys.length).map fun i =>
        (ctB (encP ((N : Int) ^ (s + 1)) N g ys (slot ys.length i k) (drawK i)),
         ctB (encP ((N : Int) ^ (s + 1)) N g ys (slot ys.length i y) (drawY i)))) := by
    rw [P.hlen]
    apply mapM_eq_map
    intro i hi
    have hi : i < ys.length := by simpa using hi
    unfold encryptKeyAt
    rw [P.hlen, encrypt_ok P (slot_length _ _ _).le (slot_nonneg (by omega)) (hk i hi).1 (hk i hi).2,
      Res.ok_bind, (Wf.enc U.pos U.hN U.hg U.hys _ _).toProto, Res.ok_bind,
      encrypt_ok P (slot_length _ _ _).le (slot_nonneg (by omega)) (hy i hi).1 (hy i hi).2,
      Res.ok_bind, (Wf.enc U.pos U.hN U.hg U.hys _ _).toProto]
    rfl
  rw [ek, Res.ok_bind, ey, Res.ok_bind, toBytes_encB (by omega), Res.ok_bind,
    toBytes_encB (by omega), Res.ok_bind, hA]
  simp only [Res.ok_bind, Res.pure_eq, List.map_map, keyCts]
  rfl

/-- A public key whose ciphertexts have the right shape. -/
structure KeyOk (v : BbSig G) (N s : Nat) (ys : List Int) (pk : BbPublicKey) (ks yks : List CsCt) :
    Prop where
  parse : parseKeys v.cs pk = .ok (ks, yks)
  wks : ∀ k ∈ ks, Wf ((N : Int) ^ (s + 1)) ys.length k
  wyks : ∀ k ∈ yks, Wf ((N : Int) ^ (s + 1)) ys.length k
  lk : ks.length = ys.length
  ly : yks.length = ys.length

theorem Made.keyOk (M : Made gs h n N s g ys v) {ks yks : List CsCt}
    (wk : ∀ k ∈ ks, Wf ((N : Int) ^ (s + 1)) ys.length k)
    (wy : ∀ k ∈ yks, Wf ((N : Int) ^ (s + 1)) ys.length k) (lk : ks.length = ys.length)
    (ly : yks.length = ys.length) :
    KeyOk v N s ys ⟨ks.map ctB, yks.map ctB⟩ ks yks := by
  obtain ⟨cfg, P⟩ := M.pub
  refine ⟨?_, wk, wy, lk, ly⟩
  unfold parseKeys
  have hA : (List.range v.cs.len).mapM (parseKeyAt v.cs ⟨ks.map ctB, yks.map ctB⟩) =
      .ok ((List.range ys.length).map fun i => (ks.getD i default, yks.getD i default)) := by
    rw [P.hlen]
    apply mapM_eq_map
    intro i hi
    have hi : i < ys.length := by simpa using hi
    have h1 : i < ks.length := by omega
    have h2 : i < yks.length := by omega
    have e1 : (ks.map ctB).getD i (ctB default) = ctB (ks.getD i default) := by
      simp [List.getD_eq_getElem?_getD, h1]
    have e2 : (yks.map ctB).getD i (ctB default) = ctB (yks.getD i default) := by
      simp [List.getD_eq_getElem?_getD, h2]
    unfold parseKeyAt
    simp only [idx_ok (ctB default) (by simpa using h1 : i < (ks.map ctB).length),
      idx_ok (ctB default) (by simpa using h2 : i < (yks.map ctB).length), e1, e2, Res.ok_bind,
      (wk _ (getD_mem default h1)).parse P, (wy _ (getD_mem default h2)).parse P, Res.pure_eq]
  have ext : ∀ l : List CsCt, l.length = ys.length →
      (List.range ys.length).map (fun i => l.getD i default) = l := by
    intro l hl
    apply List.ext_getElem
    · simp [hl]
    · intro i h1 h2
      simp [List.getD_eq_getElem?_getD, h2]
  rw [hA]
  simp only [Res.ok_bind, Res.pure_eq, List.map_map]
  congr 1
  exact Prod.ext (ext ks lk) (ext yks ly)

/-! ### The first part of the request generator -/

/-- The mask `a` from a draw. -/
def aOf (v : BbSig G) (w : Nat) : Int := (w : Int) % ((v.group.order : Int) - 1) + 1

theorem Made.aOf_ok (M : Made gs h n N s g ys v) (w : Nat) :
    v.group.generatePrivateKey w = .ok (aOf v w) ∧ 1 ≤ aOf v w ∧ aOf v w < v.group.order := by
  have h2 := M.order
  have hpos : 0 < (v.group.order : Int) - 1 := by omega
  refine ⟨?_, ?_, ?_⟩
  · simp only [EcGroup.generatePrivateKey, Ctx.randBetween]
    rw [if_pos (by omega), randLessThan_eq _ hpos]
    rfl
  · have := Int.emod_nonneg (w : Int) hpos.ne'
    unfold aOf; omega
  · have := Int.emod_lt_of_pos (w : Int) hpos
    unfold aOf; omega

/-- The secret exponents of an honest request. -/
def secretP (v : BbSig G) (n : Int) (N L : Nat) (ms rs : List Int) (om orr : Int) (d : ReqDraws) :
    Witness :=
  let as := (List.range ms.length).map (fun i => aOf v (d.a i))
  let os := (List.range ms.length).map (fun i => (d.openA i : Int) % n)
  { messages := ms, rs := rs, as := as, asOpen := os
    bs := drawP ms.length ((v.group.order : Int) * v.group.order * 2 ^ tBits v) d.b
    alphas := List.zipWith (· * ·) ms as, gammas := List.zipWith (· * ·) rs as
    enc := drawP (numCts ms.length L) N d.enc
    messagesOpen := om, rsOpen := orr, bsOpen := (d.openB : Int) % n
    alphasOpen1 := (d.openAlphas : Int) % n + (List.zipWith (· * ·) os ms).sum
    alphasOpen2 := (d.openAlphas : Int) % n
    gammasOpen1 := (d.openGammas : Int) % n + (List.zipWith (· * ·) os rs).sum
    gammasOpen2 := (d.openGammas : Int) % n }

theorem zipWith_mul_nonneg {xs ys : List Int} (hx : ∀ x ∈ xs, 0 ≤ x) (hy : ∀ y ∈ ys, 0 ≤ y) :
    ∀ z ∈ List.zipWith (· * ·) xs ys, 0 ≤ z := by
  intro z hz
  obtain ⟨i, hi, rfl⟩ := List.mem_iff_getElem.1 hz
  simp only [List.getElem_zipWith]
  exact mul_nonneg (hx _ (by simp)) (hy _ (by simp))

theorem Made.secretP_ok (M : Made gs h n N s g ys v) {ms rs : List Int} {om orr : Int}
    (d : ReqDraws) (hl : rs.length = ms.length) (hm : ∀ m ∈ ms, 0 ≤ m) (hr : ∀ r ∈ rs, 0 ≤ r)
    (ho : 0 ≤ om) (ho' : 0 ≤ orr) (L : Nat) :
    WitOk ms.length (numCts ms.length L) (secretP v n N L ms rs om orr d) := by
  have hn := M.n0
  have hq := M.order
  have hN : (0 : Int) < N := by have := M.N1; omega
  have ha : ∀ a ∈ (List.range ms.length).map (fun i => aOf v (d.a i)), 0 ≤ a := by
    intro a ha
    obtain ⟨i, _, rfl⟩ := List.mem_map.1 ha
    have := (M.aOf_ok (d.a i)).2.1
    omega
  have hos : ∀ a ∈ (List.range ms.length).map (fun i => (d.openA i : Int) % n), 0 ≤ a := by
    intro a ha
    obtain ⟨i, _, rfl⟩ := List.mem_map.1 ha
    exact Int.emod_nonneg _ hn.ne'
  have e : ∀ w : Nat, 0 ≤ (w : Int) % n := fun w => Int.emod_nonneg _ hn.ne'
  refine ⟨⟨rfl, hm⟩, ⟨hl, hr⟩, ⟨by simp [secretP], ha⟩, ⟨by simp [secretP], hos⟩,
    drawP_ok (by positivity) _ _, ⟨by simp [secretP], zipWith_mul_nonneg hm ha⟩,
    ⟨by simp [secretP, hl], zipWith_mul_nonneg hr ha⟩, drawP_ok hN _ _, ho, ho', e _, ?_, e _, ?_,
    e _⟩
  · exact add_nonneg (e _) (List.sum_nonneg (zipWith_mul_nonneg hos hm))
  · exact add_nonneg (e _) (List.sum_nonneg (zipWith_mul_nonneg hos hr))

/-- The ciphertexts of a vector of exponents. -/
def ctsP (q : Int) (M N g : Int) (ys : List Int) (ks yks : List CsCt) (w : Witness) : List CsCt :=
  (List.range (numCts w.messages.length ys.length)).map
    (homCtP M N g ys (maskedMessages q w) w.as w.gammas w.enc ks yks)

/-- What the first part of an honest generator returns. -/
def prepP (v : BbSig G) (gs : List Int) (h n : Int) (N s : Nat) (g : Int) (ys : List Int)
    (ks yks : List CsCt) (w : Witness) : Prepared :=
  let cas := comAsP gs h n w.as w.asOpen w.messages.length
  { ks := ks, ys := yks, witness := w
    cts := ctsP v.group.order ((N : Int) ^ (s + 1)) N g ys ks yks w
    commitAs := cas, commitBs := commitment gs h n w.bs w.bsOpen
    commitAlphas := accP n (commitment gs h n (List.replicate gs.length 0) w.alphasOpen2) cas
      w.messages
    commitGammas := accP n (commitment gs h n (List.replicate gs.length 0) w.gammasOpen2) cas
      w.rs }

theorem maskedMessages_ok {q : Int} (hq : 0 ≤ q) {k m : Nat} {w : Witness} (W : WitOk k m w) :
    (maskedMessages q w).length = k ∧ ∀ x ∈ maskedMessages q w, 0 ≤ x := by
  constructor
  · simp [maskedMessages, W.alphas.1, W.bs.1]
  · intro z hz
    unfold maskedMessages at hz
    obtain ⟨i, hi, rfl⟩ := List.mem_iff_getElem.1 hz
    simp only [List.getElem_zipWith]
    exact add_nonneg (W.alphas.2 _ (by simp)) (mul_nonneg (W.bs.2 _ (by simp)) hq)

theorem Made.ciphertexts_eq (M : Made gs h n N s g ys v) {pk : BbPublicKey} {ks yks : List CsCt}
    (K : KeyOk v N s ys pk ks yks) {k : Nat} {w : Witness} (W : WitOk k (numCts k ys.length) w) :
    ciphertexts v ks yks w =
      if ∀ r ∈ w.enc, RandOk N r then
        .ok (ctsP v.group.order ((N : Int) ^ (s + 1)) N g ys ks yks w)
      else .err .invalidArgument := by
  obtain ⟨cfg, P⟩ := M.pub
  have hq := M.order
  obtain ⟨h1, h2⟩ := maskedMessages_ok (by omega : 0 ≤ (v.group.order : Int)) W
  unfold ciphertexts ctsP
  rw [homCts_ok P M.units M.ysne K.wks K.wyks K.lk K.ly h2 W.as.2 W.gammas.2 W.enc.2
    (by rw [h1, W.as.1]) (by rw [h1, W.gammas.1]) (by rw [h1, W.enc.1]), h1, W.messages.1]

theorem Made.prepare_eq (M : Made gs h n N s g ys v) {pk : BbPublicKey} {ks yks : List CsCt}
    (K : KeyOk v N s ys pk ks yks) {ms rs : List Int} {om orr : Int}
    (d : ReqDraws) (hl : rs.length = ms.length) (hg : ms.length ≤ gs.length)
    (hm : ∀ m ∈ ms, 0 ≤ m) (hr : ∀ r ∈ rs, 0 ≤ r) (ho : 0 ≤ om) (ho' : 0 ≤ orr) :
    prepare v ms rs pk om orr d =
      if ∀ r ∈ (secretP v n N ys.length ms rs om orr d).enc, RandOk N r then
        .ok (prepP v gs h n N s g ys ks yks (secretP v n N ys.length ms rs om orr d))
      else .err .invalidArgument := by
  obtain ⟨cfg, P⟩ := M.pub
  have W := M.secretP_ok (om := om) (orr := orr) d hl hm hr ho ho' ys.length
  set w := secretP v n N ys.length ms rs om orr d with hw
  have hq := M.order
  have hn := M.n0
  have hN : (0 : Int) < N := by have := M.N1; omega
  have hlen := M.len0
  have Gd := M.good
  have hA : (List.range ms.length).mapM (fun i => v.group.generatePrivateKey (d.a i)) =
      .ok w.as := mapM_eq_map (fun i _ => (M.aOf_ok (d.a i)).1)
  have hB : drawList ms.length ((v.group.order : Int) * v.group.order * 2 ^ tBits v) d.b = .ok w.bs :=
    drawList_ok (by positivity) _ _
  have hE : drawList (numCts ms.length v.cs.len) v.cs.n d.enc = .ok w.enc := by
    rw [P.hlen, P.hn]; exact drawList_ok hN _ _
  have hC : homCts v.cs (List.zipWith (fun alpha b => alpha + b * (v.group.order : Int))
      (List.zipWith (· * ·) ms w.as) w.bs) w.as (List.zipWith (· * ·) rs w.as) w.enc ks yks =
      if ∀ r ∈ w.enc, RandOk N r then
        .ok (ctsP v.group.order ((N : Int) ^ (s + 1)) N g ys ks yks w)
      else .err .invalidArgument := M.ciphertexts_eq K W
  have hD : (List.range w.as.length).mapM (commitNewAt v.ped w.as d.openA) =
      .ok ((List.range ms.length).map fun i => (comAtP gs h n w.as w.asOpen i, w.asOpen.getD i 0)) := by
    rw [W.as.1]
    apply mapM_eq_map
    intro i hi
    have hi : i < ms.length := by simpa using hi
    have ei : w.asOpen.getD i 0 = (d.openA i : Int) % n := getD_map_range _ _ hi
    unfold commitNewAt Ped.commit comAtP
    rw [idx_ok 0 (by rw [W.as.1]; exact hi), Res.ok_bind, Gd.n_eq, randLessThan_eq _ hn, Res.ok_bind,
      Gd.gs_eq, Gd.commit (valid_slot (getD_nonneg W.as.2 i) (Int.emod_nonneg _ hn.ne')), ei]
    rfl
  have hO : (List.range ms.length).map (fun i => w.asOpen.getD i 0) = w.asOpen := by
    apply ext_getD
    · simp [W.asOpen.1]
    · intro i hi
      rw [getD_map_range _ _ (by simpa using hi)]
  have hF : Ped.commit v.ped w.bs d.openB = .ok (commitment gs h n w.bs w.bsOpen, w.bsOpen) := by
    unfold Ped.commit
    rw [Gd.n_eq, randLessThan_eq _ hn, Res.ok_bind,
      Gd.commit ⟨by rw [W.bs.1]; exact hg, W.bs.2, Int.emod_nonneg _ hn.ne'⟩]
    rfl
  have hZ : ∀ x : Nat, Ped.commit v.ped (List.replicate v.ped.gs.length 0) x =
      .ok (commitment gs h n (List.replicate gs.length 0) ((x : Int) % n), (x : Int) % n) := by
    intro x
    unfold Ped.commit
    rw [Gd.n_eq, randLessThan_eq _ hn, Res.ok_bind, Gd.gs_eq,
      Gd.commit (valid_zeros (Int.emod_nonneg _ hn.ne'))]
    rfl
  unfold prepare
  simp only [M.shift_t, Res.ok_bind, hA, hB, K.parse]
  rw [P.hlen, if_neg (by omega), ← P.hlen, hE, Res.ok_bind, hC]
  split
  · simp only [Res.ok_bind, hD, hF, hZ, List.map_map, Function.comp_def, hO]
    rw [accumulate_ok Gd hn hm, Res.ok_bind, accumulate_ok Gd hn hr, Res.ok_bind]
    rfl
  · rfl

/-! ### The dummy exponents -/

/-- The dummy exponents. -/
def dummyP (v : BbSig G) (n : Int) (N L k : Nat) (d : ReqDraws) : Witness :=
  let q : Int := v.group.order
  let T : Int := 2 ^ tBits v
  let hom := n * T * q * (k + 1 : Nat)
  { messages := drawP k (q * T) d.messages, rs := drawP k (q * T) d.rs, as := drawP k (q * T) d.as
    asOpen := drawP k (n * T) d.asOpen, bs := drawP k (q * q * T * T) d.bs
    alphas := drawP k (q * T * q) d.alphas, gammas := drawP k (q * T * q) d.gammas
    enc := drawP (numCts k L) (N * T) d.dummyEnc
    messagesOpen := (d.messagesOpen : Int) % (n * T), rsOpen := (d.rsOpen : Int) % (n * T)
    bsOpen := (d.bsOpen : Int) % (n * T), alphasOpen1 := (d.alphasOpen1 : Int) % hom
    alphasOpen2 := (d.alphasOpen2 : Int) % (n * T), gammasOpen1 := (d.gammasOpen1 : Int) % hom
    gammasOpen2 := (d.gammasOpen2 : Int) % (n * T) }

theorem Made.dummyP_ok (M : Made gs h n N s g ys v) (k : Nat) (d : ReqDraws) :
    WitOk k (numCts k ys.length) (dummyP v n N ys.length k d) ∧
      dummyWitness v k d = .ok (dummyP v n N ys.length k d) := by
  obtain ⟨cfg, P⟩ := M.pub
  have hq : (0 : Int) < v.group.order := by have := M.order; omega
  have hn := M.n0
  have hN : (0 : Int) < N := by have := M.N1; omega
  have hT : (0 : Int) < 2 ^ tBits v := by positivity
  have h1 : 0 < (v.group.order : Int) * 2 ^ tBits v := by positivity
  have h2 : 0 < n * 2 ^ tBits v := by positivity
  have h3 : 0 < (v.group.order : Int) * v.group.order * 2 ^ tBits v * 2 ^ tBits v := by positivity
  have h4 : 0 < (v.group.order : Int) * 2 ^ tBits v * v.group.order := by positivity
  have h5 : 0 < n * 2 ^ tBits v * v.group.order * (k + 1 : Nat) := by positivity
  have h6 : 0 < (N : Int) * 2 ^ tBits v := by positivity
  constructor
  · exact ⟨drawP_ok h1 _ _, drawP_ok h1 _ _, drawP_ok h1 _ _, drawP_ok h2 _ _, drawP_ok h3 _ _,
      drawP_ok h4 _ _, drawP_ok h4 _ _, drawP_ok h6 _ _, Int.emod_nonneg _ h2.ne',
      Int.emod_nonneg _ h2.ne', Int.emod_nonneg _ h2.ne', Int.emod_nonneg _ h5.ne',
      Int.emod_nonneg _ h2.ne', Int.emod_nonneg _ h5.ne', Int.emod_nonneg _ h2.ne'⟩
  · unfold dummyWitness
    simp only [M.shift_t, Res.ok_bind, M.good.n_eq, P.hn, P.hlen, drawList_ok h1, drawList_ok h2,
      drawList_ok h3, drawList_ok h4, drawList_ok h6, randLessThan_eq _ h2, randLessThan_eq _ h5,
      Res.pure_eq]
    rfl

/-! ### Messages of the proof -/

abbrev Com := Int × Int × List Int × Int × Int × Int × Int × Int

def m1P (c : Com) (cts : List CsCt) : BbReqMessage1 :=
  ⟨encB c.1, encB c.2.1, vecB c.2.2.1, encB c.2.2.2.1, encB c.2.2.2.2.1, encB c.2.2.2.2.2.1,
    encB c.2.2.2.2.2.2.1, encB c.2.2.2.2.2.2.2, cts.map ctB⟩

def m2P (w : Witness) : BbReqMessage2 :=
  { messages := vecB w.messages, messagesOpen := encB w.messagesOpen, rs := vecB w.rs
    rsOpen := encB w.rsOpen, as := vecB w.as, asOpen := vecB w.asOpen, bs := vecB w.bs
    bsOpen := encB w.bsOpen, alphas := vecB w.alphas, alphasOpen1 := encB w.alphasOpen1
    alphasOpen2 := encB w.alphasOpen2, gammas := vecB w.gammas, gammasOpen1 := encB w.gammasOpen1
    gammasOpen2 := encB w.gammasOpen2, enc := vecB w.enc }

theorem m2P_ok {k m : Nat} {w : Witness} (W : WitOk k m w) :
    w.toProto = .ok (m2P w) ∧ (m2P w).parse = w := by
  constructor
  · unfold Witness.toProto
    simp only [toProto_vecB W.messages.2, toBytes_encB W.messagesOpen, toProto_vecB W.rs.2,
      toBytes_encB W.rsOpen, toProto_vecB W.as.2, toProto_vecB W.asOpen.2, toProto_vecB W.bs.2,
      toBytes_encB W.bsOpen, toProto_vecB W.alphas.2, toBytes_encB W.alphasOpen1,
      toBytes_encB W.alphasOpen2, toProto_vecB W.gammas.2, toBytes_encB W.gammasOpen1,
      toBytes_encB W.gammasOpen2, toProto_vecB W.enc.2, Res.ok_bind, Res.pure_eq]
    rfl
  · unfold BbReqMessage2.parse m2P
    simp only [parse_vecB W.messages.2, ofBytes_encB W.messagesOpen, parse_vecB W.rs.2,
      ofBytes_encB W.rsOpen, parse_vecB W.as.2, parse_vecB W.asOpen.2, parse_vecB W.bs.2,
      ofBytes_encB W.bsOpen, parse_vecB W.alphas.2, ofBytes_encB W.alphasOpen1,
      ofBytes_encB W.alphasOpen2, parse_vecB W.gammas.2, ofBytes_encB W.gammasOpen1,
      ofBytes_encB W.gammasOpen2, parse_vecB W.enc.2]

theorem comAsP_nonneg {gs : List Int} {h n : Int} (hn : 0 < n) (as os : List Int) (k : Nat) :
    ∀ x ∈ comAsP gs h n as os k, 0 ≤ x := by
  intro x hx
  obtain ⟨i, _, rfl⟩ := List.mem_map.1 hx
  exact comAtP_nonneg hn _ _ _

theorem comAsP_unit {gs : List Int} {h n : Int} (hgs : ∀ g ∈ gs, Int.gcd g n = 1)
    (hh : Int.gcd h n = 1) (as os : List Int) (k : Nat) :
    ∀ x ∈ comAsP gs h n as os k, Int.gcd x n = 1 := by
  intro x hx
  obtain ⟨i, _, rfl⟩ := List.mem_map.1 hx
  exact comAtP_unit hgs hh _ _ _

theorem ctsP_wf {q M N g : Int} {ys : List Int} (U : Units M N g ys) {ks yks : List CsCt}
    (hks : ∀ k ∈ ks, Wf M ys.length k) (hyks : ∀ k ∈ yks, Wf M ys.length k)
    (hk : ks.length = ys.length) (hy : yks.length = ys.length) (w : Witness) :
    ∀ c ∈ ctsP q M N g ys ks yks w, Wf M ys.length c := by
  intro c hc
  obtain ⟨i, _, rfl⟩ := List.mem_map.1 hc
  exact homCtP_wf U hks hyks hk hy i

theorem m1P_ok {M : Int} {L : Nat} {gs : List Int} {h n : Int} (hn : 0 < n) {commitAs : List Int}
    {w : Witness} {cts : List CsCt} (wc : ∀ c ∈ cts, Wf M L c) :
    Composites.toProto ⟨(comP gs h n commitAs w).1, (comP gs h n commitAs w).2.1,
      (comP gs h n commitAs w).2.2.1, (comP gs h n commitAs w).2.2.2.1,
      (comP gs h n commitAs w).2.2.2.2.1, (comP gs h n commitAs w).2.2.2.2.2.1,
      (comP gs h n commitAs w).2.2.2.2.2.2.1, (comP gs h n commitAs w).2.2.2.2.2.2.2, cts⟩ =
      .ok (m1P (comP gs h n commitAs w) cts) := by
  unfold Composites.toProto
  have e : ∀ ms r, 0 ≤ commitment gs h n ms r := fun ms r => commitment_nonneg hn ms r
  have a : ∀ ms r cs es, 0 ≤ accP n (commitment gs h n ms r) cs es := fun ms r cs es =>
    accP_nonneg hn (commitment_emod ms r)
  simp only [comP, toBytes_encB (e _ _), toProto_vecB (comAsP_nonneg hn _ _ _),
    toBytes_encB (a _ _ _ _), Wf.toProtos wc, Res.ok_bind, Res.pure_eq]
  rfl

/-- The request of an honest generator. -/
def reqP (p : Prepared) : BbRequest := ⟨p.witness.messages.length, p.cts.map ctB⟩

def stP (v : BbSig G) (pk : BbPublicKey) (cm cr : Int) (p : Prepared) : ReqStatement :=
  ⟨v.params, pk, encB cm, encB cr, vecB p.commitAs, encB p.commitBs, encB p.commitAlphas,
    encB p.commitGammas, reqP p⟩

def proofP (p : Prepared) (c : Int) (dw : Witness) : BbReqProof :=
  ⟨vecB p.commitAs, encB p.commitBs, encB p.commitAlphas, encB p.commitGammas, encB c,
    m2P (Witness.mask c dw p.witness)⟩

/-- The generator, in closed form. -/
theorem Made.generateRequest_eq (M : Made gs h n N s g ys v) (H : Hashes) {pk : BbPublicKey}
    {ks yks : List CsCt} (K : KeyOk v N s ys pk ks yks) {ms rs : List Int} {cm om cr orr : Int}
    (d : ReqDraws) (hl : rs.length = ms.length) (hg : ms.length ≤ gs.length)
    (hm : ∀ m ∈ ms, 0 ≤ m) (hr : ∀ r ∈ rs, 0 ≤ r) (ho : 0 ≤ om) (ho' : 0 ≤ orr) (hcm : 0 ≤ cm)
    (hcr : 0 ≤ cr) :
    let w := secretP v n N ys.length ms rs om orr d
    let dw := dummyP v n N ys.length ms.length d
    let p := prepP v gs h n N s g ys ks yks w
    let m1 := m1P (comP gs h n p.commitAs dw)
      (ctsP v.group.order ((N : Int) ^ (s + 1)) N g ys ks yks dw)
    ∃ c, requestChallenge H v (stP v pk cm cr p) m1 = .ok c ∧ 0 ≤ c ∧
      c < 2 ^ v.params.chal.toNat ∧
      generateRequest H v ms rs pk cm om cr orr d =
        if (∀ r ∈ w.enc, RandOk N r) ∧ ∀ r ∈ dw.enc, RandOk N r then
          .ok (reqP p, proofP p c dw, vecB w.as)
        else .err .invalidArgument := by
  intro w dw p m1
  obtain ⟨c, hc, hc0, hc1⟩ := M.requestChallenge_ok H (stP v pk cm cr p) m1
  refine ⟨c, hc, hc0, hc1, ?_⟩
  have W : WitOk ms.length (numCts ms.length ys.length) w := M.secretP_ok d hl hm hr ho ho' ys.length
  obtain ⟨D, hD⟩ := M.dummyP_ok ms.length d
  have hn := M.n0
  have Gd := M.good
  have U := M.units
  have hW := WitOk.mask hc0 D W
  have hlenA : p.commitAs.length = ms.length := by simp [p, prepP, comAsP, w, secretP]
  have wcts := ctsP_wf (q := (v.group.order : Int)) U K.wks K.wyks K.lk K.ly w
  have wdcts := ctsP_wf (q := (v.group.order : Int)) U K.wks K.wyks K.lk K.ly dw
  unfold generateRequest
  rw [if_neg (by rw [Gd.gs_eq]; omega), if_neg (by omega),
    M.prepare_eq K d hl hg hm hr ho ho']
  by_cases h1 : ∀ r ∈ w.enc, RandOk N r
  · rw [if_pos h1, Res.ok_bind]
    show (do
      let state ← bigNumVectorToProto w.as
      let ctsProto ← p.cts.mapM Cs.ciphertextToProto
      let request : BbRequest := ⟨ms.length, ctsProto⟩
      let dummy ← dummyWitness v ms.length d
      let c1 ← commitments v.ped p.commitAs dummy
      let dummyCts ← ciphertexts v ks yks dummy
      let cm ← BN.toBytes cm
      let cr ← BN.toBytes cr
      let cas ← bigNumVectorToProto p.commitAs
      let cbs ← BN.toBytes p.commitBs
      let cal ← BN.toBytes p.commitAlphas
      let cga ← BN.toBytes p.commitGammas
      let m1 ← Composites.toProto
        ⟨c1.1, c1.2.1, c1.2.2.1, c1.2.2.2.1, c1.2.2.2.2.1, c1.2.2.2.2.2.1, c1.2.2.2.2.2.2.1,
          c1.2.2.2.2.2.2.2, dummyCts⟩
      let c ← requestChallenge H v (⟨v.params, pk, cm, cr, cas, cbs, cal, cga, request⟩ : ReqStatement) m1
      let challenge ← BN.toBytes c
      let m2 ← (Witness.mask c dummy w).toProto
      return (request, (⟨cas, cbs, cal, cga, challenge, m2⟩ : BbReqProof), state)) = _
    rw [toProto_vecB W.as.2, Res.ok_bind, Wf.toProtos (l := p.cts) wcts, Res.ok_bind]
    simp only [hD, Res.ok_bind]
    rw [commitments_ok Gd hn D hg hlenA, Res.ok_bind, M.ciphertexts_eq K D]
    by_cases h2 : ∀ r ∈ dw.enc, RandOk N r
    · rw [if_pos h2, if_pos ⟨h1, h2⟩, Res.ok_bind, toBytes_encB hcm, Res.ok_bind, toBytes_encB hcr,
        Res.ok_bind, toProto_vecB (l := p.commitAs) (comAsP_nonneg hn _ _ _), Res.ok_bind,
        toBytes_encB (x := p.commitBs) (commitment_nonneg hn _ _), Res.ok_bind,
        toBytes_encB (x := p.commitAlphas) (accP_nonneg hn (commitment_emod _ _)), Res.ok_bind,
        toBytes_encB (x := p.commitGammas) (accP_nonneg hn (commitment_emod _ _)), Res.ok_bind,
        m1P_ok hn wdcts, Res.ok_bind]
      show (do
        let c ← requestChallenge H v (stP v pk cm cr p) m1
        let challenge ← BN.toBytes c
        let m2 ← (Witness.mask c dw w).toProto
        return (reqP p, (⟨vecB p.commitAs, encB p.commitBs, encB p.commitAlphas,
          encB p.commitGammas, challenge, m2⟩ : BbReqProof), vecB w.as)) = _
      rw [hc, Res.ok_bind, toBytes_encB hc0, Res.ok_bind, (m2P_ok hW).1]
      rfl
    · rw [if_neg h2, if_neg (fun hh => h2 hh.2)]
      rfl
  · rw [if_neg h1, if_neg (fun hh => h1 hh.1)]
    rfl

/-! ### The verifier -/

theorem maskedMessages_mask {q c : Int} {k m : Nat} {d w : Witness} (hd : WitOk k m d)
    (hw : WitOk k m w) (i : Nat) (hi : i < k) :
    (maskedMessages q (Witness.mask c d w)).getD i 0 =
      (maskedMessages q d).getD i 0 + c * (maskedMessages q w).getD i 0 := by
  have e1 : (Witness.mask c d w).alphas = maskL c d.alphas w.alphas := rfl
  have e2 : (Witness.mask c d w).bs = maskL c d.bs w.bs := rfl
  have l1 : (maskL c d.alphas w.alphas).length = k := by
    rw [maskL_length (by rw [hd.alphas.1, hw.alphas.1]), hw.alphas.1]
  have l2 : (maskL c d.bs w.bs).length = k := by
    rw [maskL_length (by rw [hd.bs.1, hw.bs.1]), hw.bs.1]
  unfold maskedMessages
  rw [e1, e2, getD_zipWith (by omega) (by omega),
    getD_zipWith (by rw [hd.alphas.1]; exact hi) (by rw [hd.bs.1]; exact hi),
    getD_zipWith (by rw [hw.alphas.1]; exact hi) (by rw [hw.bs.1]; exact hi),
    maskL_getD (by rw [hd.alphas.1, hw.alphas.1]), maskL_getD (by rw [hd.bs.1, hw.bs.1])]
  ring

theorem ctsP_lin {q M N g : Int} {ys : List Int} (hq : 0 ≤ q) (U : Units M N g ys)
    {ks yks : List CsCt} (hks : ∀ k ∈ ks, Wf M ys.length k) (hyks : ∀ k ∈ yks, Wf M ys.length k)
    (hk : ks.length = ys.length) (hy : yks.length = ys.length) {c : Int} (hc : 0 ≤ c) {k m : Nat}
    {d w : Witness} (hd : WitOk k m d) (hw : WitOk k m w) (i : Nat) :
    Lin M ys.length c.toNat
      (homCtP M N g ys (maskedMessages q d) d.as d.gammas d.enc ks yks i)
      (homCtP M N g ys (maskedMessages q w) w.as w.gammas w.enc ks yks i)
      (homCtP M N g ys (maskedMessages q (Witness.mask c d w)) (Witness.mask c d w).as
        (Witness.mask c d w).gammas (Witness.mask c d w).enc ks yks i) := by
  obtain ⟨d1, d2⟩ := maskedMessages_ok hq hd
  obtain ⟨w1, w2⟩ := maskedMessages_ok hq hw
  obtain ⟨z1, _⟩ := maskedMessages_ok hq (WitOk.mask hc hd hw)
  refine homCtP_lin U hks hyks hk hy hc d2 w2 hd.as.2 hw.as.2 hd.gammas.2 hw.gammas.2 hd.enc.2
    hw.enc.2 (by rw [d1, w1]) (by rw [z1, w1]) ?_ ?_ ?_ i ?_
  · intro j hj
    exact maskedMessages_mask hd hw j (by omega)
  · intro j _
    exact maskL_getD (by rw [hd.as.1, hw.as.1]) j
  · intro j _
    exact maskL_getD (by rw [hd.gammas.1, hw.gammas.1]) j
  · exact maskL_getD (by rw [hd.enc.1, hw.enc.1]) i

/-- The verifier recomputes the dummy commitments and ciphertexts. -/
theorem Made.recompute_ok (M : Made gs h n N s g ys v) {ks yks : List CsCt} {pk : BbPublicKey}
    (K : KeyOk v N s ys pk ks yks) {k : Nat} (hg : k ≤ gs.length) {d w : Witness}
    (D : WitOk k (numCts k ys.length) d) (W : WitOk k (numCts k ys.length) w) {c : Int}
    (hc : 0 ≤ c) {cm cr : Int} (hcm : cm = commitment gs h n w.messages w.messagesOpen)
    (hcr : cr = commitment gs h n w.rs w.rsOpen)
    (hal : w.alphas = List.zipWith (· * ·) w.messages w.as)
    (hga : w.gammas = List.zipWith (· * ·) w.rs w.as)
    (hao : w.alphasOpen1 = w.alphasOpen2 + (List.zipWith (· * ·) w.asOpen w.messages).sum)
    (hgo : w.gammasOpen1 = w.gammasOpen2 + (List.zipWith (· * ·) w.asOpen w.rs).sum) :
    let p := prepP v gs h n N s g ys ks yks w
    let com := comP gs h n p.commitAs d
    recompute v (proofP p c d) cm cr p.cts (comP gs h n p.commitAs (Witness.mask c d w))
      (ctsP v.group.order ((N : Int) ^ (s + 1)) N g ys ks yks (Witness.mask c d w)) =
      .ok ⟨com.1, com.2.1, com.2.2.1, com.2.2.2.1, com.2.2.2.2.1, com.2.2.2.2.2.1,
        com.2.2.2.2.2.2.1, com.2.2.2.2.2.2.2,
        ctsP v.group.order ((N : Int) ^ (s + 1)) N g ys ks yks d⟩ := by
  intro p com
  have hn := M.n0
  have Gd := M.good
  have U := M.units
  obtain ⟨cfg, P⟩ := M.pub
  have hq : (0 : Int) ≤ v.group.order := by have := M.order; omega
  have Vv : ∀ {x : List Int} {r : Int}, (x.length = k ∧ ∀ z ∈ x, 0 ≤ z) → 0 ≤ r → Valid gs x r :=
    fun h1 h2 => ⟨by rw [h1.1]; exact hg, h1.2, h2⟩
  have cU : ∀ ms r, Int.gcd (commitment gs h n ms r) n = 1 := commitment_unit M.gsU M.hU
  have lA : p.commitAs.length = k := by simp [p, prepP, comAsP, W.messages.1]
  have casU : ∀ x ∈ p.commitAs, Int.gcd x n = 1 := comAsP_unit M.gsU M.hU _ _ _
  have zl : ∀ r rd, 0 ≤ r → 0 ≤ rd →
      commitment gs h n (List.replicate gs.length 0) (rd + c * r) ≡
      commitment gs h n (List.replicate gs.length 0) rd *
        commitment gs h n (List.replicate gs.length 0) r ^ c.toNat [ZMOD n] := by
    intro r rd hr hrd
    have := commitment_mask (h := h) (n := n) hc rfl (valid_zeros (gs := gs) hrd) (valid_zeros hr)
    rwa [zeros_mask] at this
  -- alphas
  have eA : p.commitAlphas = commitment gs h n w.alphas w.alphasOpen1 := by
    rw [hal, hao, ← commitment_emod]
    show accP n (commitment gs h n (List.replicate gs.length 0) w.alphasOpen2)
      (comAsP gs h n w.as w.asOpen w.messages.length) w.messages = _
    rw [← accP_emod (commitment_emod _ _) (n := n)]
    have := accP_products (h := h) (n := n) (gs := gs) (by rw [W.as.1]; exact hg)
      (by rw [W.asOpen.1, W.as.1]) (by rw [W.messages.1, W.as.1]) W.as.2 W.asOpen.2 W.messages.2
      W.alphasOpen2
    rw [W.as.1, ← W.messages.1] at this
    exact this
  have eG : p.commitGammas = commitment gs h n w.gammas w.gammasOpen1 := by
    rw [hga, hgo, ← commitment_emod]
    show accP n (commitment gs h n (List.replicate gs.length 0) w.gammasOpen2)
      (comAsP gs h n w.as w.asOpen w.messages.length) w.rs = _
    rw [← accP_emod (commitment_emod _ _) (n := n)]
    have := accP_products (h := h) (n := n) (gs := gs) (by rw [W.as.1]; exact hg)
      (by rw [W.asOpen.1, W.as.1]) (by rw [W.rs.1, W.as.1]) W.as.2 W.asOpen.2 W.rs.2
      W.gammasOpen2
    rw [W.as.1, ← W.messages.1] at this
    exact this
  have uA : Int.gcd p.commitAlphas n = 1 := by rw [eA]; exact cU _ _
  have uG : Int.gcd p.commitGammas n = 1 := by rw [eG]; exact cU _ _
  have nA : 0 ≤ p.commitAlphas := by rw [eA]; exact commitment_nonneg hn _ _
  have nG : 0 ≤ p.commitGammas := by rw [eG]; exact commitment_nonneg hn _ _
  have x1 := unmask_ok Gd hn hc (cU w.messages w.messagesOpen) (commitment_emod _ _)
    (commitment_mask (h := h) (n := n) hc (by rw [D.messages.1, W.messages.1])
      (Vv D.messages D.messagesOpen) (Vv W.messages W.messagesOpen))
  have x2 := unmask_ok Gd hn hc (cU w.rs w.rsOpen) (commitment_emod _ _)
    (commitment_mask (h := h) (n := n) hc (by rw [D.rs.1, W.rs.1])
      (Vv D.rs D.rsOpen) (Vv W.rs W.rsOpen))
  have x4 := unmask_ok Gd hn hc (cU w.bs w.bsOpen) (commitment_emod _ _)
    (commitment_mask (h := h) (n := n) hc (by rw [D.bs.1, W.bs.1])
      (Vv D.bs D.bsOpen) (Vv W.bs W.bsOpen))
  have x5 := unmask_ok Gd hn hc (cU w.alphas w.alphasOpen1) (commitment_emod _ _)
    (commitment_mask (h := h) (n := n) hc (by rw [D.alphas.1, W.alphas.1])
      (Vv D.alphas D.alphasOpen1) (Vv W.alphas W.alphasOpen1))
  have x7 := unmask_ok Gd hn hc (cU w.gammas w.gammasOpen1) (commitment_emod _ _)
    (commitment_mask (h := h) (n := n) hc (by rw [D.gammas.1, W.gammas.1])
      (Vv D.gammas D.gammasOpen1) (Vv W.gammas W.gammasOpen1))
  have x6 := unmask_ok Gd hn hc uA (accP_emod (commitment_emod _ _))
    (accP_mask (cs := p.commitAs) hc (by rw [D.messages.1, W.messages.1]) D.messages.2 W.messages.2
      (zl _ _ W.alphasOpen2 D.alphasOpen2))
  have x8 := unmask_ok Gd hn hc uG (accP_emod (commitment_emod _ _))
    (accP_mask (cs := p.commitAs) hc (by rw [D.rs.1, W.rs.1]) D.rs.2 W.rs.2
      (zl _ _ W.gammasOpen2 D.gammasOpen2))
  have x3 : ((comAsP gs h n (Witness.mask c d w).as (Witness.mask c d w).asOpen k).zip
      (comAsP gs h n w.as w.asOpen k)).mapM (fun x => unmask v.ped c x.1 x.2) =
      .ok (comAsP gs h n d.as d.asOpen k) := by
    unfold comAsP
    rw [List.zip_map', List.mapM_map]
    apply mapM_eq_map
    intro i hi
    have hi : i < k := by simpa using hi
    apply unmask_ok Gd hn hc (comAtP_unit M.gsU M.hU _ _ _) (commitment_emod _ _)
    have e1 : (Witness.mask c d w).as.getD i 0 = d.as.getD i 0 + c * w.as.getD i 0 :=
      maskL_getD (by rw [D.as.1, W.as.1]) i
    have e2 : (Witness.mask c d w).asOpen.getD i 0 = d.asOpen.getD i 0 + c * w.asOpen.getD i 0 :=
      maskL_getD (by rw [D.asOpen.1, W.asOpen.1]) i
    show comAtP gs h n (Witness.mask c d w).as (Witness.mask c d w).asOpen i ≡
      comAtP gs h n d.as d.asOpen i * comAtP gs h n w.as w.asOpen i ^ c.toNat [ZMOD n]
    unfold comAtP
    rw [e1, e2]
    exact commitment_slot_mask (by omega) hc (getD_nonneg D.as.2 i) (getD_nonneg W.as.2 i)
      (getD_nonneg D.asOpen.2 i) (getD_nonneg W.asOpen.2 i)
  have lm : (Witness.mask c d w).messages.length = k := (WitOk.mask hc D W).messages.1
  have x9 : ((ctsP (v.group.order : Int) ((N : Int) ^ (s + 1)) N g ys ks yks
      (Witness.mask c d w)).zip p.cts).mapM (fun x => unmaskCt v.cs c x.1 x.2) =
      .ok (ctsP v.group.order ((N : Int) ^ (s + 1)) N g ys ks yks d) := by
    show ((ctsP (v.group.order : Int) ((N : Int) ^ (s + 1)) N g ys ks yks
      (Witness.mask c d w)).zip (ctsP (v.group.order : Int) ((N : Int) ^ (s + 1)) N g ys ks yks
      w)).mapM _ = _
    unfold ctsP
    rw [lm, W.messages.1, D.messages.1, List.zip_map', List.mapM_map]
    apply mapM_eq_map
    intro i _
    exact unmaskCt_ok P hc (homCtP_wf U K.wks K.wyks K.lk K.ly i) (homCtP_wf U K.wks K.wyks K.lk K.ly i)
      (homCtP_wf U K.wks K.wyks K.lk K.ly i) (ctsP_lin hq U K.wks K.wyks K.lk K.ly hc D W i)
  unfold recompute
  have b1 : BN.ofBytes (proofP p c d).challenge = c := ofBytes_encB hc
  have b2 : parseBigNumVectorProto (proofP p c d).commitAs = p.commitAs :=
    parse_vecB (comAsP_nonneg hn _ _ _)
  have b3 : BN.ofBytes (proofP p c d).commitBs = commitment gs h n w.bs w.bsOpen :=
    ofBytes_encB (commitment_nonneg hn _ _)
  have b4 : BN.ofBytes (proofP p c d).commitAlphas = p.commitAlphas := ofBytes_encB nA
  have b5 : BN.ofBytes (proofP p c d).commitGammas = p.commitGammas := ofBytes_encB nG
  rw [← eA] at x5
  rw [← eG] at x7
  have y3 : ((comAsP gs h n (Witness.mask c d w).as (Witness.mask c d w).asOpen
      p.commitAs.length).zip p.commitAs).mapM (fun x => unmask v.ped c x.1 x.2) =
      .ok (comAsP gs h n d.as d.asOpen p.commitAs.length) := by
    rw [lA]
    have : p.commitAs = comAsP gs h n w.as w.asOpen k := by
      show comAsP gs h n w.as w.asOpen w.messages.length = _
      rw [W.messages.1]
    rw [this]
    exact x3
  rw [b1, b2, b3, b4, b5, hcm, hcr]
  simp only [comP]
  have e1 : (Witness.mask c d w).messages = maskL c d.messages w.messages := rfl
  have e2 : (Witness.mask c d w).rs = maskL c d.rs w.rs := rfl
  have e3 : (Witness.mask c d w).bs = maskL c d.bs w.bs := rfl
  have e4 : (Witness.mask c d w).alphas = maskL c d.alphas w.alphas := rfl
  have e5 : (Witness.mask c d w).gammas = maskL c d.gammas w.gammas := rfl
  have f1 : (Witness.mask c d w).messagesOpen = d.messagesOpen + c * w.messagesOpen := rfl
  have f2 : (Witness.mask c d w).rsOpen = d.rsOpen + c * w.rsOpen := rfl
  have f3 : (Witness.mask c d w).bsOpen = d.bsOpen + c * w.bsOpen := rfl
  have f4 : (Witness.mask c d w).alphasOpen1 = d.alphasOpen1 + c * w.alphasOpen1 := rfl
  have f5 : (Witness.mask c d w).alphasOpen2 = d.alphasOpen2 + c * w.alphasOpen2 := rfl
  have f6 : (Witness.mask c d w).gammasOpen1 = d.gammasOpen1 + c * w.gammasOpen1 := rfl
  have f7 : (Witness.mask c d w).gammasOpen2 = d.gammasOpen2 + c * w.gammasOpen2 := rfl
  rw [y3, x9, e1, e2, e3, e4, e5, f1, f2, f3, f4, f5, f6, f7, x1, Res.ok_bind, x2, Res.ok_bind,
    Res.ok_bind, x4, Res.ok_bind, x5, Res.ok_bind, x6, Res.ok_bind, x7, Res.ok_bind, x8,
    Res.ok_bind, Res.ok_bind]
  rfl

/-- The masked values of an honest proof are below the verifier's bounds. -/
theorem mask_bound {c B X D x d : Int} (hc0 : 0 ≤ c) (hd : d < D) (hx0 : 0 ≤ x)
    (hx : x ≤ X) (hB : D + c * X ≤ B) : d + c * x < B := by
  have : c * x ≤ c * X := mul_le_mul_of_nonneg_left hx hc0
  omega

theorem any_ge_false {l : List Int} {b : Int} (h : ∀ x ∈ l, x < b) :
    l.any (fun x => decide (x ≥ b)) = false := by
  simp only [List.any_eq_false, decide_eq_true_eq]
  intro x hx
  have := h x hx
  omega

theorem maskL_lt {c B X D : Int} {ds xs : List Int} (hl : ds.length = xs.length) (hc0 : 0 ≤ c)
    (hd : ∀ d ∈ ds, d < D) (hx0 : ∀ x ∈ xs, 0 ≤ x) (hx : ∀ x ∈ xs, x ≤ X) (hB : D + c * X ≤ B) :
    ∀ z ∈ maskL c ds xs, z < B := by
  intro z hz
  unfold maskL at hz
  obtain ⟨i, hi, rfl⟩ := List.mem_iff_getElem.1 hz
  simp only [List.getElem_zipWith]
  exact mask_bound hc0 (hd _ (by simp)) (hx0 _ (by simp)) (hx _ (by simp)) hB

/-- The bounds on honest secrets. -/
structure SecBound (q T : Int) (w : Witness) : Prop where
  messages : ∀ x ∈ w.messages, x ≤ q
  as : ∀ x ∈ w.as, x ≤ q
  bs : ∀ x ∈ w.bs, x ≤ q * q * T
  alphas : ∀ x ∈ w.alphas, x ≤ q * q
  gammas : ∀ x ∈ w.gammas, x ≤ q * q

theorem zipWith_mul_le {xs ys : List Int} {q : Int} (hq : 0 ≤ q) (hx : ∀ x ∈ xs, x ≤ q)
    (hy0 : ∀ y ∈ ys, 0 ≤ y) (hy : ∀ y ∈ ys, y ≤ q) : ∀ z ∈ List.zipWith (· * ·) xs ys, z ≤ q * q := by
  intro z hz
  obtain ⟨i, hi, rfl⟩ := List.mem_iff_getElem.1 hz
  simp only [List.getElem_zipWith]
  exact mul_le_mul (hx _ (by simp)) (hy _ (by simp)) (hy0 _ (by simp)) hq

theorem Made.secretP_bound (M : Made gs h n N s g ys v) {ms rs : List Int} {om orr : Int}
    (d : ReqDraws) (hm : ∀ m ∈ ms, m < v.group.order) (hr : ∀ r ∈ rs, r < v.group.order) (L : Nat) :
    SecBound v.group.order (2 ^ tBits v) (secretP v n N L ms rs om orr d) := by
  have hq := M.order
  have ha : ∀ a ∈ (List.range ms.length).map (fun i => aOf v (d.a i)),
      0 ≤ a ∧ a ≤ v.group.order := by
    intro a ha
    obtain ⟨i, _, rfl⟩ := List.mem_map.1 ha
    have := (M.aOf_ok (d.a i)).2
    omega
  refine ⟨fun x hx => (hm x hx).le, fun x hx => (ha x hx).2, ?_, ?_, ?_⟩
  · intro x hx
    exact (drawP_bounds (by positivity) x hx).2.le
  · exact zipWith_mul_le (by omega) (fun x hx => (hm x hx).le) (fun x hx => (ha x hx).1)
      (fun x hx => (ha x hx).2)
  · exact zipWith_mul_le (by omega) (fun x hx => (hr x hx).le) (fun x hx => (ha x hx).1)
      (fun x hx => (ha x hx).2)

theorem Made.requestBounds_ok (M : Made gs h n N s g ys v) {k m : Nat} (d : ReqDraws)
    {w : Witness} (W : WitOk k m w) (B : SecBound v.group.order (2 ^ tBits v) w) {c : Int}
    (hc0 : 0 ≤ c) (hc1 : c < 2 ^ v.params.chal.toNat) :
    requestBounds v (Witness.mask c (dummyP v n N ys.length k d) w) = .ok () := by
  have hq := M.order
  set q : Int := (v.group.order : Int) with hqd
  obtain ⟨D, _⟩ := M.dummyP_ok k d
  set T : Int := 2 ^ tBits v with hT
  have hT0 : 0 < T := by positivity
  have hcT : c ≤ T := by have := M.chal_lt; have := hT; omega
  have p1 : (2 : Int) ^ (tBits v + 1) = T * 2 := by rw [hT, pow_succ]
  have p2 : (2 : Int) ^ (2 * tBits v + 1) = T * T * 2 := by rw [hT]; ring
  have q1 : c * q ≤ T * q := mul_le_mul_of_nonneg_right hcT (by omega)
  have q2 : c * (q * q) ≤ T * (q * q) := mul_le_mul_of_nonneg_right hcT (by positivity)
  have q3 : c * (q * q * T) ≤ T * (q * q * T) := mul_le_mul_of_nonneg_right hcT (by positivity)
  have b1 : ∀ x ∈ (Witness.mask c (dummyP v n N ys.length k d) w).messages, x < q * (T * 2) :=
    maskL_lt (D := q * T) (X := q) (by rw [D.messages.1, W.messages.1]) hc0
      (fun x hx => (drawP_bounds (by positivity) x hx).2) W.messages.2 B.messages
      (by linarith [mul_comm q T, mul_comm q (T * 2), mul_comm c q])
  have b2 : ∀ x ∈ (Witness.mask c (dummyP v n N ys.length k d) w).as, x < q * (T * 2) :=
    maskL_lt (D := q * T) (X := q) (by rw [D.as.1, W.as.1]) hc0
      (fun x hx => (drawP_bounds (by positivity) x hx).2) W.as.2 B.as (by linarith)
  have b3 : ∀ x ∈ (Witness.mask c (dummyP v n N ys.length k d) w).bs, x < q * q * (T * T * 2) :=
    maskL_lt (D := q * q * T * T) (X := q * q * T) (by rw [D.bs.1, W.bs.1]) hc0
      (fun x hx => (drawP_bounds (by positivity) x hx).2) W.bs.2 B.bs (by linarith)
  have b4 : ∀ x ∈ (Witness.mask c (dummyP v n N ys.length k d) w).alphas, x < q * (T * 2) * q :=
    maskL_lt (D := q * T * q) (X := q * q) (by rw [D.alphas.1, W.alphas.1]) hc0
      (fun x hx => (drawP_bounds (by positivity) x hx).2) W.alphas.2 B.alphas (by linarith)
  have b5 : ∀ x ∈ (Witness.mask c (dummyP v n N ys.length k d) w).gammas, x < q * (T * 2) * q :=
    maskL_lt (D := q * T * q) (X := q * q) (by rw [D.gammas.1, W.gammas.1]) hc0
      (fun x hx => (drawP_bounds (by positivity) x hx).2) W.gammas.2 B.gammas (by linarith)
  unfold requestBounds
  simp only [M.shift_t1, M.shift_2t1, Res.ok_bind, p1, p2, ← hqd]
  rw [any_ge_false b1, any_ge_false b2, any_ge_false b3, any_ge_false b4, any_ge_false b5]
  simp

/-- The verifier on an honest proof. -/
theorem Made.verifyRequest_eq (M : Made gs h n N s g ys v) (H : Hashes) {ks yks : List CsCt}
    {pk : BbPublicKey} (K : KeyOk v N s ys pk ks yks) {k : Nat} (hg : k ≤ gs.length) (d : ReqDraws)
    {w : Witness} (W : WitOk k (numCts k ys.length) w)
    (B : SecBound v.group.order (2 ^ tBits v) w) {c : Int}
    (hc0 : 0 ≤ c) (hc1 : c < 2 ^ v.params.chal.toNat)
    {cm cr : Int} (hcm : cm = commitment gs h n w.messages w.messagesOpen)
    (hcr : cr = commitment gs h n w.rs w.rsOpen)
    (hal : w.alphas = List.zipWith (· * ·) w.messages w.as)
    (hga : w.gammas = List.zipWith (· * ·) w.rs w.as)
    (hao : w.alphasOpen1 = w.alphasOpen2 + (List.zipWith (· * ·) w.asOpen w.messages).sum)
    (hgo : w.gammasOpen1 = w.gammasOpen2 + (List.zipWith (· * ·) w.asOpen w.rs).sum) :
    let p := prepP v gs h n N s g ys ks yks w
    let dw := dummyP v n N ys.length k d
    requestChallenge H v (stP v pk cm cr p) (m1P (comP gs h n p.commitAs dw)
      (ctsP v.group.order ((N : Int) ^ (s + 1)) N g ys ks yks dw)) = .ok c →
    verifyRequest H v pk (reqP p) (proofP p c dw) cm cr =
      if ∀ r ∈ (Witness.mask c dw w).enc, RandOk N r then .ok () else .err .invalidArgument := by
  intro p dw hch
  obtain ⟨cfg, P⟩ := M.pub
  obtain ⟨D, _⟩ := M.dummyP_ok k d
  have Z := WitOk.mask hc0 D W
  have hn := M.n0
  have Gd := M.good
  have U := M.units
  have hlen := M.len0
  have lA : p.commitAs.length = k := by simp [p, prepP, comAsP, W.messages.1]
  have lC : p.cts.length = numCts k ys.length := by simp [p, prepP, ctsP, W.messages.1]
  have num : (reqP p).num = k := W.messages.1
  have hsz : requestSizes v (reqP p) (proofP p c dw) = .ok () := by
    unfold requestSizes
    have l0 : (proofP p c dw).commitAs.length = k := by simp [proofP, vecB_length, lA]
    have l1 : (proofP p c dw).message2.messages.length = k := by
      show (vecB _).length = k; rw [vecB_length]; exact Z.messages.1
    have l2 : (proofP p c dw).message2.rs.length = k := by
      show (vecB _).length = k; rw [vecB_length]; exact Z.rs.1
    have l3 : (proofP p c dw).message2.as.length = k := by
      show (vecB _).length = k; rw [vecB_length]; exact Z.as.1
    have l4 : (proofP p c dw).message2.bs.length = k := by
      show (vecB _).length = k; rw [vecB_length]; exact Z.bs.1
    have l5 : (proofP p c dw).message2.alphas.length = k := by
      show (vecB _).length = k; rw [vecB_length]; exact Z.alphas.1
    have l6 : (proofP p c dw).message2.gammas.length = k := by
      show (vecB _).length = k; rw [vecB_length]; exact Z.gammas.1
    have l7 : (proofP p c dw).message2.enc.length = numCts k ys.length := by
      show (vecB _).length = _; rw [vecB_length]; exact Z.enc.1
    have l8 : (reqP p).cts.length = numCts k ys.length := by
      simp only [reqP, List.length_map]; exact lC
    rw [num, l0, l1, l2, l3, l4, l5, l6, l7, l8, Gd.gs_eq, P.hlen]
    simp only [ne_eq, not_true, if_false]
    rw [if_neg (by omega), if_neg (by omega)]
  have hcm0 : 0 ≤ cm := by rw [hcm]; exact commitment_nonneg hn _ _
  have hcr0 : 0 ≤ cr := by rw [hcr]; exact commitment_nonneg hn _ _
  have wcts := ctsP_wf (q := (v.group.order : Int)) U K.wks K.wyks K.lk K.ly w
  have hparse : (reqP p).cts.mapM (Cs.parseCiphertextProto v.cs) = .ok p.cts :=
    Wf.parses P (l := p.cts) wcts
  have hm2 : (proofP p c dw).message2.parse = Witness.mask c dw w := (m2P_ok Z).2
  have hpa : parseBigNumVectorProto (proofP p c dw).commitAs = p.commitAs :=
    parse_vecB (comAsP_nonneg hn _ _ _)
  have hbc : BN.ofBytes (proofP p c dw).challenge = c := ofBytes_encB hc0
  have r1 : requestBounds v (Witness.mask c dw w) = .ok () := M.requestBounds_ok d W B hc0 hc1
  have r2 : commitments v.ped p.commitAs (Witness.mask c dw w) =
      .ok (comP gs h n p.commitAs (Witness.mask c dw w)) := commitments_ok Gd hn Z hg lA
  have r3 : ciphertexts v ks yks (Witness.mask c dw w) =
      if ∀ r ∈ (Witness.mask c dw w).enc, RandOk N r then
        .ok (ctsP v.group.order ((N : Int) ^ (s + 1)) N g ys ks yks (Witness.mask c dw w))
      else .err .invalidArgument := M.ciphertexts_eq K Z
  unfold verifyRequest
  simp only [hsz, Res.ok_bind, toBytes_encB hcm0, toBytes_encB hcr0, hparse, hm2, r1, hpa, r2,
    K.parse, r3, hbc]
  by_cases hE : ∀ r ∈ (Witness.mask c dw w).enc, RandOk N r
  · rw [if_pos hE, if_pos hE, Res.ok_bind,
      M.recompute_ok K hg D W hc0 hcm hcr hal hga hao hgo, Res.ok_bind,
      m1P_ok hn (ctsP_wf (q := (v.group.order : Int)) U K.wks K.wyks K.lk K.ly dw), Res.ok_bind]
    show (do
      let c' ← requestChallenge H v (stP v pk cm cr p) (m1P (comP gs h n p.commitAs dw)
        (ctsP v.group.order ((N : Int) ^ (s + 1)) N g ys ks yks dw))
      if c' ≠ c then .err .invalidArgument else .ok ()) = _
    rw [hch]
    simp
  · rw [if_neg hE, if_neg hE]
    rfl

end PJC.Bb
