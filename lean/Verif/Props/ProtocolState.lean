import Verif.Props.Protocol
/-
C04 - C09: the two message handlers over arbitrary call histories and arbitrary messages.
-/
set_option linter.unusedSectionVars false
namespace PJC.Protocol
open PJC.Props

variable {G : Type} [AddCommGroup G] [DecidableEq G]

/-! ### Specification: call histories of a server object -/

/-- One call of the server's `Handle`. -/
structure ServerCall where
  rnd : ServerRand
  sink : ServerMsg → Res Unit
  msg : ClientMsg

/-- The outcomes of a sequence of calls on one object; a call that does not return is the
last one. -/
def serverTrace : Server G → List ServerCall → List (Out (Server G) ServerMsg)
  | _, [] => []
  | s, c :: cs =>
    let o := s.handle c.rnd c.sink c.msg
    match o.status with
    | .crash => [o]
    | .ub => [o]
    | _ => o :: serverTrace o.state cs

def ServerMsg.isRoundOne : ServerMsg → Bool
  | .roundOne _ => true
  | _ => false

def ServerMsg.isRoundTwo : ServerMsg → Bool
  | .roundTwo _ => true
  | _ => false

/-- All messages handed to the sink during a history. -/
def allSent {σ μ : Type} (tr : List (Out σ μ)) : List μ := (tr.map Out.sent).flatten

theorem serverTrace_cons (s : Server G) (c : ServerCall) (cs : List ServerCall) :
    ∃ rest, serverTrace s (c :: cs) = s.handle c.rnd c.sink c.msg :: rest ∧
      (rest = [] ∨ rest = serverTrace (s.handle c.rnd c.sink c.msg).state cs) := by
  simp only [serverTrace]
  split
  · exact ⟨_, rfl, .inl rfl⟩
  · exact ⟨_, rfl, .inl rfl⟩
  · exact ⟨_, rfl, .inr rfl⟩

/-- The possible effects of one call. -/
inductive ServerEffect (s : Server G) (o : Out (Server G) ServerMsg) : Prop
  | refused (h : s.finished = true) (hs : o.state = s) (hm : o.sent = [])
      (ht : o.status = .err .invalidArgument)
  | nothing (h : s.finished = false) (hs : o.state = s) (hm : o.sent = [])
  | keyed (h : s.finished = false) (hc : s.cipher = none) (K : EcCipher G)
      (hs : o.state = { s with cipher := some K }) (hm : o.sent = []) (hne : o.status ≠ .ok ())
  | one (h : s.finished = false) (hc : s.cipher = none) (K : EcCipher G)
      (hs : o.state = { s with cipher := some K }) (set : List EncElement)
      (hm : o.sent = [.roundOne set])
  | two (h : s.finished = false) (K : EcCipher G) (hc : s.cipher = some K)
      (hs : o.state = { s with finished := true }) (r : ServerRoundTwo)
      (hm : o.sent = [.roundTwo r])

theorem Server.effect (s : Server G) (rnd : ServerRand) (sink : ServerMsg → Res Unit)
    (m : ClientMsg) : ServerEffect s (s.handle rnd sink m) := by
  unfold Server.handle
  by_cases hf : s.finished = true
  · simp only [hf, if_true]
    exact .refused hf rfl rfl rfl
  have hf' : s.finished = false := by simpa using hf
  simp only [hf', Bool.false_eq_true, if_false]
  cases m with
  | other => exact .nothing hf' rfl rfl
  | empty => exact .nothing hf' rfl rfl
  | start =>
    simp only [Server.encryptSet]
    cases hc : s.cipher with
    | some K => exact .nothing hf' rfl rfl
    | none =>
      simp only []
      cases hK : EcCipher.createWithNewKey s.curve .sha256 rnd.keyWord with
      | ok K =>
        simp only []
        cases hl : Server.encryptLoop K s.inputs with
        | ok set => exact .one hf' hc K rfl set rfl
        | err e => exact .keyed hf' hc K rfl rfl (by simp)
        | crash => exact .keyed hf' hc K rfl rfl (by simp)
        | ub => exact .keyed hf' hc K rfl rfl (by simp)
      | err e => exact .nothing hf' rfl rfl
      | crash => exact .nothing hf' rfl rfl
      | ub => exact .nothing hf' rfl rfl
  | roundOne m =>
    simp only []
    cases hr : s.computeIntersection rnd m with
    | ok r =>
      obtain ⟨K, hc⟩ : ∃ K, s.cipher = some K := by
        cases hc : s.cipher with
        | none => simp [Server.computeIntersection, hc] at hr
        | some K => exact ⟨K, rfl⟩
      exact .two hf' K hc rfl r rfl
    | err e => exact .nothing hf' rfl rfl
    | crash => exact .nothing hf' rfl rfl
    | ub => exact .nothing hf' rfl rfl

theorem trace_one_count (calls : List ServerCall) : ∀ s : Server G,
    (allSent (serverTrace s calls)).countP ServerMsg.isRoundOne ≤
      if s.cipher = none then 1 else 0 := by
  induction calls with
  | nil => intro s; simp [serverTrace, allSent]
  | cons c cs ih =>
    intro s
    obtain ⟨rest, e, hr⟩ := serverTrace_cons s c cs
    rw [e]
    have hrest : (allSent rest).countP ServerMsg.isRoundOne ≤
        if (s.handle c.rnd c.sink c.msg).state.cipher = none then 1 else 0 := by
      rcases hr with rfl | rfl
      · simp [allSent]
      · exact ih _
    have happ : allSent (s.handle c.rnd c.sink c.msg :: rest) =
        (s.handle c.rnd c.sink c.msg).sent ++ allSent rest := rfl
    rw [happ, List.countP_append]
    cases s.effect c.rnd c.sink c.msg with
    | refused h hs hm ht => rw [hm]; rw [hs] at hrest; simpa using hrest
    | nothing h hs hm => rw [hm]; rw [hs] at hrest; simpa using hrest
    | keyed h hc K hs hm => 
      rw [hm]; rw [hs] at hrest
      rw [if_neg (by simp)] at hrest
      rw [if_pos hc, List.countP_nil]
      omega
    | one h hc K hs set hm =>
      rw [hm]; rw [hs] at hrest
      rw [if_neg (by simp)] at hrest
      rw [if_pos hc]
      have : [ServerMsg.roundOne set].countP ServerMsg.isRoundOne = 1 := rfl
      omega
    | two h K hc hs r hm =>
      rw [hm]; rw [hs] at hrest
      simp only [hc] at hrest
      simpa [hc, ServerMsg.isRoundOne] using hrest

theorem trace_two_count (calls : List ServerCall) : ∀ s : Server G,
    (allSent (serverTrace s calls)).countP ServerMsg.isRoundTwo ≤
      if s.finished = false then 1 else 0 := by
  induction calls with
  | nil => intro s; simp [serverTrace, allSent]
  | cons c cs ih =>
    intro s
    obtain ⟨rest, e, hr⟩ := serverTrace_cons s c cs
    rw [e]
    have hrest : (allSent rest).countP ServerMsg.isRoundTwo ≤
        if (s.handle c.rnd c.sink c.msg).state.finished = false then 1 else 0 := by
      rcases hr with rfl | rfl
      · simp [allSent]
      · exact ih _
    have happ : allSent (s.handle c.rnd c.sink c.msg :: rest) =
        (s.handle c.rnd c.sink c.msg).sent ++ allSent rest := rfl
    rw [happ, List.countP_append]
    cases s.effect c.rnd c.sink c.msg with
    | refused h hs hm ht => rw [hm]; rw [hs] at hrest; simpa using hrest
    | nothing h hs hm => rw [hm]; rw [hs] at hrest; simpa using hrest
    | keyed h hc K hs hm => rw [hm]; rw [hs] at hrest; simpa using hrest
    | one h hc K hs set hm =>
      rw [hm]; rw [hs] at hrest
      simpa [ServerMsg.isRoundTwo] using hrest
    | two h K hc hs r hm =>
      rw [hm]; rw [hs] at hrest
      rw [if_neg (by simp)] at hrest
      rw [if_pos h]
      have : [ServerMsg.roundTwo r].countP ServerMsg.isRoundTwo = 1 := rfl
      omega

theorem trace_finished_iff (calls : List ServerCall) : ∀ (s : Server G) (i : Nat)
    (hi : i < (serverTrace s calls).length),
    ((serverTrace s calls)[i].state.finished = true ↔ s.finished = true ∨
      ∃ j, ∃ hj : j < (serverTrace s calls).length, j ≤ i ∧
        ∃ r, .roundTwo r ∈ (serverTrace s calls)[j].sent) := by
  induction calls with
  | nil => intro s i hi; simp [serverTrace] at hi
  | cons c cs ih =>
    intro s
    obtain ⟨rest, e, hr⟩ := serverTrace_cons s c cs
    rw [e]
    set o := s.handle c.rnd c.sink c.msg with ho
    have hstep : o.state.finished = true ↔
        s.finished = true ∨ ∃ r, .roundTwo r ∈ o.sent := by
      cases s.effect c.rnd c.sink c.msg with
      | refused h hs hm ht => rw [← ho] at hs hm; simp [hs, hm]
      | nothing h hs hm => rw [← ho] at hs hm; simp [hs, hm]
      | keyed h hc K hs hm => rw [← ho] at hs hm; simp [hs, hm]
      | one h hc K hs set hm => rw [← ho] at hs hm; simp [hs, hm]
      | two h K hc hs r hm => rw [← ho] at hs hm; simp [hs, hm]
    have hrest : ∀ (i : Nat) (hi : i < rest.length), (rest[i].state.finished = true ↔
        o.state.finished = true ∨ ∃ j, ∃ hj : j < rest.length, j ≤ i ∧
          ∃ r, .roundTwo r ∈ rest[j].sent) := by
      rcases hr with rfl | rfl
      · intro i hi; simp at hi
      · exact ih _
    intro i hi
    cases i with
    | zero =>
      rw [List.getElem_cons_zero, hstep]
      constructor
      · rintro (h | h)
        · exact .inl h
        · exact .inr ⟨0, by simp, le_refl _, h⟩
      · rintro (h | ⟨j, hj, hji, h⟩)
        · exact .inl h
        · obtain rfl : j = 0 := by omega
          exact .inr h
    | succ i =>
      rw [List.getElem_cons_succ, hrest i (by simpa using hi), hstep]
      constructor
      · rintro ((h | h) | ⟨j, hj, hji, h⟩)
        · exact .inl h
        · exact .inr ⟨0, by simp, by omega, h⟩
        · exact .inr ⟨j + 1, by simpa using hj, by omega, by simpa using h⟩
      · rintro (h | ⟨j, hj, hji, h⟩)
        · exact .inl (.inl h)
        · cases j with
          | zero => exact .inl (.inr h)
          | succ j => exact .inr ⟨j, by simpa using hj, by omega, by simpa using h⟩

theorem trace_after_finished (calls : List ServerCall) : ∀ (s : Server G), s.finished = true →
    ∀ o ∈ serverTrace s calls, o.state = s ∧ o.sent = [] ∧ o.status = .err .invalidArgument := by
  induction calls with
  | nil => intro s _ o ho; simp [serverTrace] at ho
  | cons c cs ih =>
    intro s hf o ho
    obtain ⟨rest, e, hr⟩ := serverTrace_cons s c cs
    rw [e] at ho
    have hone : (s.handle c.rnd c.sink c.msg).state = s ∧ (s.handle c.rnd c.sink c.msg).sent = [] ∧
        (s.handle c.rnd c.sink c.msg).status = .err .invalidArgument := by
      simp [Server.handle, hf]
    rcases List.mem_cons.1 ho with rfl | ho
    · exact hone
    · rcases hr with rfl | rfl
      · simp at ho
      · rw [hone.1] at ho
        exact ih s hf o ho

theorem trace_refuses (calls : List ServerCall) : ∀ (s : Server G) (i j : Nat)
    (hi : i < (serverTrace s calls).length) (hj : j < (serverTrace s calls).length), i < j →
    (serverTrace s calls)[i].state.finished = true →
    (serverTrace s calls)[j].state = (serverTrace s calls)[i].state ∧
    (serverTrace s calls)[j].sent = [] ∧
    (serverTrace s calls)[j].status = .err .invalidArgument := by
  induction calls with
  | nil => intro s i j hi; simp [serverTrace] at hi
  | cons c cs ih =>
    intro s
    obtain ⟨rest, e, hr⟩ := serverTrace_cons s c cs
    rw [e]
    intro i j hi hj hij hf
    obtain ⟨j, rfl⟩ : ∃ k, j = k + 1 := ⟨j - 1, by omega⟩
    rcases hr with rfl | rfl
    · simp at hj
    cases i with
    | zero =>
      simp only [List.getElem_cons_zero, List.getElem_cons_succ] at hf ⊢
      exact trace_after_finished cs _ hf _ (List.getElem_mem _)
    | succ i =>
      simp only [List.getElem_cons_succ] at hf ⊢
      exact ih _ i j (by simpa using hi) (by simpa using hj) (by omega) hf

theorem encryptLoop_ok {E : EcGroup G} (hE : E.Lawful) {K : EcCipher G}
    (hK : CipherOf E .sha256 K) : ∀ {as : List Bytes},
    (∀ a ∈ as, ∃ P, E.hashSha256 a = .ok P ∧ P ≠ 0) → ∃ set, Server.encryptLoop K as = .ok set
  | [], _ => ⟨[], rfl⟩
  | a :: as, h => by
    have g := hK.good hE
    obtain ⟨P, hP, hP0⟩ := h a (by simp)
    obtain ⟨e, he⟩ : ∃ e, K.encrypt a = .ok e := by
      obtain ⟨bs, hbs, -⟩ := hE.toBytes_ne (g.smul_ne hE hP0)
      refine ⟨bs, ?_⟩
      simp only [EcCipher.encrypt, EcCipher.hashToTheCurveInternal, g.hashType, g.group, hP,
        Res.ok_bind, EcCipher.encryptPoint, hbs]
    obtain ⟨set, hset⟩ := encryptLoop_ok hE hK (as := as) (fun b hb => h b (by simp [hb]))
    exact ⟨⟨e, []⟩ :: set, by simp only [Server.encryptLoop, he, hset, Res.ok_bind, Res.pure_eq]⟩

/-- The curve of the server works, and every input hashes to a point other than infinity
(`C27_hash_valid`) — or the curve could not be created at all. -/
def Server.HashOk (s : Server G) : Prop :=
  ∀ E, s.curve = .ok E → E.Lawful ∧ ∀ a ∈ s.inputs, ∃ P, E.hashSha256 a = .ok P ∧ P ≠ 0

theorem trace_order (calls : List ServerCall) : ∀ (s : Server G), s.HashOk →
    ∀ (j : Nat) (hj : j < (serverTrace s calls).length) (r : ServerRoundTwo),
    .roundTwo r ∈ (serverTrace s calls)[j].sent → s.cipher ≠ none ∨
    ∃ i, ∃ hi : i < (serverTrace s calls).length, i < j ∧
      ∃ set, .roundOne set ∈ (serverTrace s calls)[i].sent := by
  induction calls with
  | nil => intro s _ j hj; simp [serverTrace] at hj
  | cons c cs ih =>
    intro s hok
    obtain ⟨rest, e, hr⟩ := serverTrace_cons s c cs
    rw [e]
    set o := s.handle c.rnd c.sink c.msg with ho
    intro j hj r hmem
    have hnext : o.state.HashOk → o.state.cipher = s.cipher → ∀ j, j + 1 < (o :: rest).length →
        (∀ hj' : j < rest.length, .roundTwo r ∈ rest[j].sent) → s.cipher ≠ none ∨
        ∃ i, ∃ hi : i < (o :: rest).length, i < j + 1 ∧
          ∃ set, .roundOne set ∈ (o :: rest)[i].sent := by
      intro h1 h2 j hj h3
      rcases hr with rfl | rfl
      · simp at hj
      · have hj' : j < (serverTrace o.state cs).length := by simpa using hj
        rcases ih _ h1 j hj' r (h3 hj') with h | ⟨i, hi, hij, set, hset⟩
        · exact .inl (h2 ▸ h)
        · exact .inr ⟨i + 1, by simpa using hi, by omega, set, by simpa using hset⟩
    cases j with
    | zero =>
      rw [List.getElem_cons_zero] at hmem
      cases s.effect c.rnd c.sink c.msg with
      | refused h hs hm ht => rw [← ho] at hm; simp [hm] at hmem
      | nothing h hs hm => rw [← ho] at hm; simp [hm] at hmem
      | keyed h hc K hs hm => rw [← ho] at hm; simp [hm] at hmem
      | one h hc K hs set hm => rw [← ho] at hm; simp [hm] at hmem
      | two h K hc hs r hm => exact .inl (by simp [hc])
    | succ j =>
      have h3 : ∀ hj' : j < rest.length, .roundTwo r ∈ rest[j].sent := by
        intro hj'
        simpa using hmem
      cases s.effect c.rnd c.sink c.msg with
      | refused h hs hm ht =>
        rw [← ho] at hs
        exact hnext (hs ▸ hok) (by rw [hs]) j hj h3
      | nothing h hs hm =>
        rw [← ho] at hs
        exact hnext (hs ▸ hok) (by rw [hs]) j hj h3
      | keyed h hc K hs hm hne =>
        -- impossible: with a key the whole set is encrypted
        exfalso
        have : o.sent ≠ [] ∨ o.state.cipher = none := by
          simp only [ho, Server.handle, h, Bool.false_eq_true, if_false]
          cases hmsg : c.msg with
          | other => exact .inr hc
          | empty => exact .inr hc
          | start =>
            simp only [Server.encryptSet, hc]
            cases hcur : s.curve with
            | err e => simp [EcCipher.createWithNewKey, hc]
            | crash => simp [EcCipher.createWithNewKey, hc]
            | ub => simp [EcCipher.createWithNewKey, hc]
            | ok E =>
              obtain ⟨hE, hh⟩ := hok E hcur
              obtain ⟨K, hK, hK'⟩ := createWithNewKey_ok hE c.rnd.keyWord
              obtain ⟨set, hset⟩ := encryptLoop_ok hE hK' hh
              simp [hK, hset]
          | roundOne m => simp [Server.computeIntersection, hc]
        rw [← ho] at hs hm
        rcases this with h1 | h1
        · exact h1 hm
        · rw [hs] at h1; simp at h1
      | one h hc K hs set hm =>
        rw [← ho] at hm
        exact .inr ⟨0, by simp, by omega, set, by simp [hm]⟩
      | two h K hc hs r' hm => exact .inl (by simp [hc])

/-- **C04**.  Over every history of calls on a fresh server: at most one round-one message
and at most one round-two message are sent, the object is finished exactly from the sending
of a round-two message on, and afterwards it never changes, sends nothing and answers
INVALID_ARGUMENT. -/
theorem C04_life_cycle (cfg : ExpCfg) (curve : Res (EcGroup G)) (inputs : List Bytes)
    (calls : List ServerCall) :
    let tr := serverTrace (Server.init cfg curve inputs) calls
    (allSent tr).countP ServerMsg.isRoundOne ≤ 1 ∧
    (allSent tr).countP ServerMsg.isRoundTwo ≤ 1 ∧
    (∀ (i : Nat) (hi : i < tr.length), tr[i].state.finished = true ↔
      ∃ j, ∃ hj : j < tr.length, j ≤ i ∧ ∃ r, .roundTwo r ∈ tr[j].sent) ∧
    (∀ (i j : Nat) (hi : i < tr.length) (hj : j < tr.length), i < j →
      tr[i].state.finished = true →
      tr[j].state = tr[i].state ∧ tr[j].sent = [] ∧ tr[j].status = .err .invalidArgument) := by
  refine ⟨trace_one_count calls _, trace_two_count calls _, ?_, trace_refuses calls _⟩
  intro i hi
  rw [trace_finished_iff calls _ i hi]
  simp [Server.init]

/-- **C04**, order: a round-two message is sent only after a round-one message. -/
theorem C04_two_after_one (cfg : ExpCfg) (curve : Res (EcGroup G)) (inputs : List Bytes)
    (hcurve : ∀ E, curve = .ok E → E.Lawful ∧
      ∀ a ∈ inputs, ∃ P, E.hashSha256 a = .ok P ∧ P ≠ 0)
    (calls : List ServerCall) :
    let tr := serverTrace (Server.init cfg curve inputs) calls
    ∀ (j : Nat) (hj : j < tr.length) (r : ServerRoundTwo), .roundTwo r ∈ tr[j].sent →
      ∃ i, ∃ hi : i < tr.length, i < j ∧ ∃ set, .roundOne set ∈ tr[i].sent := by
  intro tr j hj r hr
  rcases trace_order calls (Server.init cfg curve inputs) hcurve j hj r hr with h | h
  · exact absurd rfl h
  · exact h

end PJC.Protocol
