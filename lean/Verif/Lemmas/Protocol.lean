import Mathlib.Data.List.Perm.Basic
import Mathlib.Data.List.Forall2
import Mathlib.Data.List.Count
import Mathlib.Algebra.BigOperators.Group.List.Basic
import Verif.Lemmas.PaillierKeys
import Verif.Model.Protocol
import Verif.Props.Ec
import Verif.Props.Paillier
/-
Facts about the protocol model: string order, sorting, set intersection, and the loops
of an honest run.
-/
set_option linter.unusedSectionVars false
namespace PJC

theorem bytesLt_irrefl : ∀ a : Bytes, bytesLt a a = false
  | [] => rfl
  | a :: as => by simp [bytesLt, bytesLt_irrefl as]

theorem bytesLt_trans : ∀ {a b c : Bytes}, bytesLt a b = true → bytesLt b c = true →
    bytesLt a c = true
  | [], _, [], _, h2 => by
    rename_i b h1; cases b <;> simp [bytesLt] at h1 h2
  | [], _, _ :: _, _, _ => rfl
  | _ :: _, [], _, h1, _ => by simp [bytesLt] at h1
  | _ :: _, _ :: _, [], _, h2 => by simp [bytesLt] at h2
  | a :: as, b :: bs, c :: cs, h1, h2 => by
    simp only [bytesLt, Fin.lt_def] at h1 h2 ⊢
    split at h1 <;> split at h2
    · rw [if_pos (by omega)]
    · split at h2
      · cases h2
      · rw [if_pos (by omega)]
    · split at h1
      · cases h1
      · rw [if_pos (by omega)]
    · split at h1
      · cases h1
      · split at h2
        · cases h2
        · rw [if_neg (by omega), if_neg (by omega)]
          exact bytesLt_trans h1 h2

theorem bytesLt_total : ∀ {a b : Bytes}, bytesLt a b = false → bytesLt b a = false → a = b
  | [], [], _, _ => rfl
  | [], _ :: _, h1, _ => by simp [bytesLt] at h1
  | _ :: _, [], _, h2 => by simp [bytesLt] at h2
  | a :: as, b :: bs, h1, h2 => by
    simp only [bytesLt, Fin.lt_def] at h1 h2
    split at h1
    · cases h1
    split at h1
    · rename_i h3 h4
      rw [if_pos h4] at h2
      cases h2
    rename_i h3 h4
    rw [if_neg h4, if_neg h3] at h2
    have : a = b := Fin.ext (by omega)
    rw [this, bytesLt_total h1 h2]

theorem bytesLt_asymm {a b : Bytes} (h : bytesLt a b = true) : bytesLt b a = false := by
  by_contra hc
  have := bytesLt_trans h (by simpa using hc)
  rw [bytesLt_irrefl] at this
  cases this

theorem bytesLt_ne {a b : Bytes} (h : bytesLt a b = true) : a ≠ b := by
  rintro rfl
  rw [bytesLt_irrefl] at h
  cases h

/-- a < b and b not above c gives a < c. -/
theorem bytesLt_of_lt_of_le {a b c : Bytes} (h1 : bytesLt a b = true)
    (h2 : bytesLt c b = false) : bytesLt a c = true := by
  cases h : bytesLt b c with
  | true => exact bytesLt_trans h1 h
  | false => rw [← bytesLt_total h h2]; exact h1

namespace Protocol

/-- Sorted by the comparison of the code: no later element is smaller. -/
def Sorted (l : List EncElement) : Prop :=
  l.Pairwise fun a b => bytesLt b.element a.element = false

/-- What `std::sort` guarantees: some sorted permutation; equal elements in any order. -/
structure IsSort (sort : List EncElement → List EncElement) : Prop where
  perm : ∀ l, (sort l).Perm l
  sorted : ∀ l, Sorted (sort l)

theorem setIntersectionLoop_filter (k : Bytes) : ∀ (fuel : Nat) (as bs : List EncElement),
    as.length + bs.length < fuel → Sorted as → Sorted bs →
    (setIntersectionLoop fuel as bs).filter (fun e => decide (e.element = k)) =
      (as.filter fun e => decide (e.element = k)).take
        (bs.filter fun e => decide (e.element = k)).length := by
  intro fuel
  induction fuel with
  | zero => intro as bs h; omega
  | succ n ih =>
    intro as bs hlen ha hb
    cases as with
    | nil => simp [setIntersectionLoop]
    | cons a as =>
      cases bs with
      | nil => simp [setIntersectionLoop]
      | cons b bs =>
        have ha' := List.pairwise_cons.1 ha
        have hb' := List.pairwise_cons.1 hb
        simp only [List.length_cons] at hlen
        simp only [setIntersectionLoop]
        by_cases hlt : elemLt a b = true
        · rw [if_pos hlt]
          replace hlt : bytesLt a.element b.element = true := hlt
          rw [ih as (b :: bs) (by simp only [List.length_cons]; omega) ha'.2 hb]
          by_cases hk : a.element = k
          · have : (b :: bs).filter (fun e => decide (e.element = k)) = [] := by
              rw [List.filter_eq_nil_iff]
              intro e he
              simp only [decide_eq_true_eq]
              rcases List.mem_cons.1 he with rfl | he
              · exact fun h => bytesLt_ne hlt (hk.trans h.symm)
              · exact fun h => bytesLt_ne (bytesLt_of_lt_of_le hlt (hb'.1 e he)) (hk.trans h.symm)
            rw [this]
            simp
          · simp [List.filter_cons, hk]
        · rw [if_neg hlt]
          by_cases hgt : elemLt b a = true
          · rw [if_pos hgt]
            replace hgt : bytesLt b.element a.element = true := hgt
            rw [ih (a :: as) bs (by simp only [List.length_cons]; omega) ha hb'.2]
            by_cases hk : b.element = k
            · have : (a :: as).filter (fun e => decide (e.element = k)) = [] := by
                rw [List.filter_eq_nil_iff]
                intro e he
                simp only [decide_eq_true_eq]
                rcases List.mem_cons.1 he with rfl | he
                · exact fun h => bytesLt_ne hgt (hk.trans h.symm)
                · exact fun h => bytesLt_ne (bytesLt_of_lt_of_le hgt (ha'.1 e he)) (hk.trans h.symm)
              rw [this]
              simp
            · simp [List.filter_cons, hk]
          · rw [if_neg hgt]
            have heq : a.element = b.element :=
              bytesLt_total (by simpa [elemLt] using hlt) (by simpa [elemLt] using hgt)
            have hrec := ih as bs (by omega) ha'.2 hb'.2
            by_cases hk : a.element = k
            · have hk' : b.element = k := heq ▸ hk
              simp [hk, hk', hrec]
            · have hk' : ¬ b.element = k := heq ▸ hk
              simp [hk, hk', hrec]

theorem setIntersectionLoop_sublist : ∀ (fuel : Nat) (as bs : List EncElement),
    (setIntersectionLoop fuel as bs).Sublist as := by
  intro fuel
  induction fuel with
  | zero => intro as bs; simp [setIntersectionLoop]
  | succ n ih =>
    intro as bs
    cases as with
    | nil => simp [setIntersectionLoop]
    | cons a as =>
      cases bs with
      | nil => simp [setIntersectionLoop]
      | cons b bs =>
        simp only [setIntersectionLoop]
        split
        · exact (ih _ _).cons _
        · split
          · exact ih _ _
          · exact (ih _ _).cons_cons _

/-- Sorted lists with the same sublist for every key are equal. -/
theorem sorted_ext : ∀ (as bs : List EncElement), Sorted as → Sorted bs →
    (∀ k, as.filter (fun e => decide (e.element = k)) =
      bs.filter (fun e => decide (e.element = k))) → as = bs
  | [], [], _, _, _ => rfl
  | [], b :: bs, _, _, h => by simpa using h b.element
  | a :: as, [], _, _, h => by simpa using h a.element
  | a :: as, b :: bs, ha, hb, h => by
    have ha' := List.pairwise_cons.1 ha
    have hb' := List.pairwise_cons.1 hb
    have h1 : a ∈ b :: bs := by
      have : a ∈ (a :: as).filter (fun e => decide (e.element = a.element)) := by simp
      rw [h] at this
      exact (List.mem_filter.1 this).1
    have h2 : b ∈ a :: as := by
      have : b ∈ (b :: bs).filter (fun e => decide (e.element = b.element)) := by simp
      rw [← h] at this
      exact (List.mem_filter.1 this).1
    have le1 : bytesLt a.element b.element = false := by
      rcases List.mem_cons.1 h1 with e | h1
      · rw [e]; exact bytesLt_irrefl _
      · exact hb'.1 a h1
    have le2 : bytesLt b.element a.element = false := by
      rcases List.mem_cons.1 h2 with e | h2
      · rw [e]; exact bytesLt_irrefl _
      · exact ha'.1 b h2
    have hk : a.element = b.element := bytesLt_total le1 le2
    have hab : a = b := by
      have := h a.element
      rw [List.filter_cons_of_pos (by simp), List.filter_cons_of_pos (by simp [hk])] at this
      exact (List.cons.inj this).1
    subst hab
    rw [sorted_ext as bs ha'.2 hb'.2 fun k => ?_]
    have := h k
    by_cases hk : a.element = k
    · rw [List.filter_cons_of_pos (by simp [hk]), List.filter_cons_of_pos (by simp [hk])] at this
      exact (List.cons.inj this).2
    · rwa [List.filter_cons_of_neg (by simp [hk]), List.filter_cons_of_neg (by simp [hk])] at this

/-- The intersection depends on the second list only through how often each key of the
first one occurs in it. -/
theorem setIntersection_congr {as bs bs' : List EncElement} (ha : Sorted as) (hb : Sorted bs)
    (hb' : Sorted bs')
    (h : ∀ a ∈ as, bs.countP (fun e => decide (e.element = a.element)) =
      bs'.countP (fun e => decide (e.element = a.element))) :
    setIntersection as bs = setIntersection as bs' := by
  have sub : ∀ cs, Sorted (setIntersection as cs) := fun cs =>
    List.Pairwise.sublist (setIntersectionLoop_sublist _ as cs) ha
  apply sorted_ext _ _ (sub _) (sub _)
  intro k
  rw [setIntersection, setIntersection, setIntersectionLoop_filter k _ _ _ (by omega) ha hb,
    setIntersectionLoop_filter k _ _ _ (by omega) ha hb', ← List.countP_eq_length_filter,
    ← List.countP_eq_length_filter]
  by_cases hk : ∃ a ∈ as, a.element = k
  · obtain ⟨a, ha, rfl⟩ := hk
    rw [h a ha]
  · have : as.filter (fun e => decide (e.element = k)) = [] := by
      rw [List.filter_eq_nil_iff]
      intro e he
      simp only [decide_eq_true_eq]
      exact fun h => hk ⟨e, he, h⟩
    rw [this, List.take_nil, List.take_nil]

/-- A permutation of a mapped list is the image of a permutation. -/
theorem perm_map_lift {α β : Type} (f : α → β) {l : List α} {l' : List β}
    (h : l'.Perm (l.map f)) : ∃ l₂ : List α, l₂.Perm l ∧ l' = l₂.map f := by
  have : (Relation.Comp List.Perm (List.Forall₂ fun b a => b = f a)) l' l :=
    ⟨l.map f, h, by rw [List.forall₂_map_left_iff]; exact List.forall₂_same.2 fun _ _ => rfl⟩
  rw [← List.forall₂_comp_perm_eq_perm_comp_forall₂] at this
  obtain ⟨l₂, h1, h2⟩ := this
  refine ⟨l₂, h2, ?_⟩
  clear h h2
  induction h1 with
  | nil => rfl
  | cons h _ ih => rw [h, ih, List.map_cons]

/-- The intersection step on the two sets an honest run produces. -/
theorem intersection_spec {sortC sortS : List EncElement → List EncElement} (hC : IsSort sortC)
    (hS : IsSort sortS) {τ : Type} (T0 : List τ) (key : τ → Bytes) (dat : τ → Bytes)
    (f : Bytes → Bytes) (S : List Bytes) (D : Bytes → Bytes)
    (hinj : ∀ a b, a ∈ T0.map key ∨ a ∈ S → b ∈ T0.map key ∨ b ∈ S → f a = f b → a = b) :
    ∃ T : List τ, T.Subperm T0 ∧
      setIntersection (sortC (T0.map fun t => ⟨f (key t), dat t⟩))
        (sortS (S.map fun b => ⟨f b, D b⟩)) = T.map (fun t => ⟨f (key t), dat t⟩) ∧
      ∀ id, T.countP (fun t => decide (key t = id)) =
        min (T0.countP fun t => decide (key t = id)) (S.count id) := by
  set g : τ → EncElement := fun t => ⟨f (key t), dat t⟩ with hg
  set h : Bytes → EncElement := fun b => ⟨f b, D b⟩ with hh
  obtain ⟨T1, hT1, e1⟩ := perm_map_lift g (hC.perm (T0.map g))
  obtain ⟨S1, hS1, e2⟩ := perm_map_lift h (hS.perm (S.map h))
  have hsub := setIntersectionLoop_sublist
    ((sortC (T0.map g)).length + (sortS (S.map h)).length + 1) (sortC (T0.map g)) (sortS (S.map h))
  rw [← setIntersection, e1] at hsub
  obtain ⟨T, hT, e3⟩ := List.sublist_map_iff.1 hsub
  rw [e1]
  refine ⟨T, hT.subperm.trans hT1.subperm, e3, ?_⟩
  intro id
  by_cases hid : id ∈ T0.map key ∨ id ∈ S
  · have hmemT1 : ∀ t ∈ T1, key t ∈ T0.map key := fun t ht =>
      List.mem_map_of_mem (hT1.mem_iff.1 ht)
    have key_iff : ∀ t ∈ T1, (f (key t) = f id ↔ key t = id) := fun t ht =>
      ⟨fun e => hinj _ _ (Or.inl (hmemT1 t ht)) hid e, fun e => by rw [e]⟩
    have key_iff' : ∀ b ∈ S1, (f b = f id ↔ b = id) := fun b hb =>
      ⟨fun e => hinj _ _ (Or.inr (hS1.mem_iff.1 hb)) hid e, fun e => by rw [e]⟩
    have hf := setIntersectionLoop_filter (f id)
      ((sortC (T0.map g)).length + (sortS (S.map h)).length + 1) (sortC (T0.map g))
      (sortS (S.map h)) (by omega) (hC.sorted _) (hS.sorted _)
    rw [← setIntersection, e1, e3, e2] at hf
    have hl := congrArg List.length hf
    rw [List.length_take, ← List.countP_eq_length_filter, ← List.countP_eq_length_filter,
      ← List.countP_eq_length_filter, List.countP_map, List.countP_map, List.countP_map] at hl
    have c1 : T.countP ((fun e : EncElement => decide (e.element = f id)) ∘ g) =
        T.countP fun t => decide (key t = id) := by
      apply List.countP_congr
      intro t ht
      simp only [Function.comp, hg, decide_eq_true_eq]
      exact key_iff t (hT.subset ht)
    have c2 : T1.countP ((fun e : EncElement => decide (e.element = f id)) ∘ g) =
        T0.countP fun t => decide (key t = id) := by
      rw [← hT1.countP_eq]
      apply List.countP_congr
      intro t ht
      simp only [Function.comp, hg, decide_eq_true_eq]
      exact key_iff t ht
    have c3 : S1.countP ((fun e : EncElement => decide (e.element = f id)) ∘ h) = S.count id := by
      rw [← hS1.count_eq, List.count]
      apply List.countP_congr
      intro b hb
      simp only [Function.comp, hh, decide_eq_true_eq, beq_iff_eq]
      exact key_iff' b hb
    rw [c1, c2, c3] at hl
    rw [hl, Nat.min_comm]
  · push Not at hid
    have h0 : T0.countP (fun t => decide (key t = id)) = 0 := by
      rw [List.countP_eq_zero]
      intro t ht
      simp only [decide_eq_true_eq]
      rintro rfl
      exact hid.1 (List.mem_map_of_mem ht)
    have h1 : T.countP (fun t => decide (key t = id)) ≤ T0.countP fun t => decide (key t = id) :=
      (hT.subperm.trans hT1.subperm).countP_le _
    omega

variable {G : Type} [AddCommGroup G] [DecidableEq G]

/-- The four loops of an honest run in terms of one injective function on identifiers:
the double encryption. -/
theorem double_encryption {E : EcGroup G} (hE : E.Lawful) {Kc Ks : EcCipher G}
    (hc : CipherOf E .sha256 Kc) (hs : CipherOf E .sha256 Ks) (ids : Bytes → Prop)
    (hhash : ∀ a, ids a → ∃ P, E.hashSha256 a = .ok P ∧ P ≠ 0)
    (hcoll : ∀ a b, ids a → ids b → E.hashSha256 a = E.hashSha256 b → a = b) :
    ∃ e e' f : Bytes → Bytes,
      (∀ a, ids a → Kc.encrypt a = .ok (e a) ∧ Ks.reEncrypt (e a) = .ok (f a) ∧
        Ks.encrypt a = .ok (e' a) ∧ Kc.reEncrypt (e' a) = .ok (f a)) ∧
      ∀ a b, ids a → ids b → f a = f b → a = b := by
  have gc := hc.good hE
  have gs := hs.good hE
  have hashc : ∀ a, Kc.hashToTheCurveInternal a = E.hashSha256 a := fun a => by
    simp only [EcCipher.hashToTheCurveInternal, gc.hashType, gc.group]
  have step : ∀ a, ∃ e e' f : Bytes, ids a → Kc.encrypt a = .ok e ∧ Ks.reEncrypt e = .ok f ∧
      Ks.encrypt a = .ok e' ∧ Kc.reEncrypt e' = .ok f := by
    intro a
    by_cases ha : ids a
    · obtain ⟨P, hP, hP0⟩ := hhash a ha
      have hok : (Ks.hashToTheCurve a).isOk := by
        obtain ⟨bs, hbs, -⟩ := hE.toBytes_ne hP0
        refine ⟨bs, ?_⟩
        have : Ks.hashToTheCurveInternal a = .ok P := by
          rw [← gc.hash_eq gs a, hashc, hP]
        simp only [EcCipher.hashToTheCurve, this, Res.ok_bind, gs.group, hbs]
      obtain ⟨f, hf⟩ := C18_succeeds E hE .sha256 Ks Kc hs hc a hok
      have hf' := hf
      rw [C18_commutes E hE .sha256 Ks Kc hs hc a] at hf'
      obtain ⟨e, he, he2⟩ := Res.bind_eq_ok.1 hf
      obtain ⟨e', he', he2'⟩ := Res.bind_eq_ok.1 hf'
      exact ⟨e, e', f, fun _ => ⟨he, he2, he', he2'⟩⟩
    · exact ⟨[], [], [], fun h => absurd h ha⟩
  choose e e' f hef using step
  refine ⟨e, e', f, fun a ha => hef a ha, ?_⟩
  intro a b ha hb hfab
  obtain ⟨a1, a2, a3, a4⟩ := hef a ha
  obtain ⟨b1, b2, b3, b4⟩ := hef b hb
  apply hcoll a b ha hb
  have h1 : (Kc.encrypt a >>= Ks.reEncrypt) = .ok (f a) := by rw [a1, Res.ok_bind, a2]
  have h2 : (Ks.encrypt b >>= Kc.reEncrypt) = .ok (f b) := by rw [b3, Res.ok_bind, b4]
  have h3 := (C20_double_encryption E hE .sha256 Kc Ks hc hs a b _ _ h1 h2).1 hfab
  obtain ⟨P, hP, hP0⟩ := hhash a ha
  obtain ⟨Q, hQ, hQ0⟩ := hhash b hb
  simp only [EcCipher.hashToTheCurve, hashc, hP, hQ, Res.ok_bind, gc.group] at h3
  obtain ⟨bs, hbs, -⟩ := hE.toBytes_ne hP0
  have : P = Q := hE.toBytes_inj hbs (h3 ▸ hbs)
  rw [hP, hQ, this]

theorem server_encryptLoop {K : EcCipher G} {e : Bytes → Bytes} : ∀ (as : List Bytes),
    (∀ a ∈ as, K.encrypt a = .ok (e a)) →
    Server.encryptLoop K as = .ok (as.map fun a => ⟨e a, []⟩)
  | [], _ => rfl
  | a :: as, h => by
    simp only [Server.encryptLoop, h a (by simp), Res.ok_bind,
      server_encryptLoop as (fun b hb => h b (by simp [hb])), Res.pure_eq, List.map_cons]

theorem client_reEncryptLoop {K : EcCipher G} {e f : Bytes → Bytes} : ∀ (as : List Bytes),
    (∀ a ∈ as, K.reEncrypt (e a) = .ok (f a)) →
    Client.reEncryptLoop K (as.map fun a => ⟨e a, []⟩) = .ok (as.map fun a => ⟨f a, []⟩)
  | [], _ => rfl
  | a :: as, h => by
    simp only [List.map_cons, Client.reEncryptLoop, h a (by simp), Res.ok_bind,
      client_reEncryptLoop as (fun b hb => h b (by simp [hb])), Res.pure_eq]

theorem server_reEncryptLoop {K : EcCipher G} {τ : Type} {key dat : τ → Bytes}
    {e f : Bytes → Bytes} : ∀ (ts : List τ),
    (∀ t ∈ ts, K.reEncrypt (e (key t)) = .ok (f (key t))) →
    Server.reEncryptLoop K (ts.map fun t => ⟨e (key t), dat t⟩) =
      .ok (ts.map fun t => ⟨f (key t), dat t⟩)
  | [], _ => rfl
  | a :: as, h => by
    simp only [List.map_cons, Server.reEncryptLoop, h a (by simp), Res.ok_bind,
      server_reEncryptLoop as (fun b hb => h b (by simp [hb])), Res.pure_eq]

/-- The client's own set: the identifiers in order, each with an encryption of its
value. -/
theorem client_encryptLoop {K : EcCipher G} {sk : PrivatePaillier} {e : Bytes → Bytes}
    {draws : Nat → BigNum × BigNum} {values : List BigNum} {B : Int}
    (hd : ∀ i, 0 ≤ (draws i).1 ∧ 0 ≤ (draws i).2)
    (henc : ∀ v rp rq, 0 ≤ v → v < B → 0 ≤ rp → 0 ≤ rq → ∃ c, sk.encrypt v rp rq = .ok c ∧ 0 ≤ c)
    (hv : ∀ v ∈ values, 0 ≤ v ∧ v < B) :
    ∀ (as : List Bytes) (i : Nat), i + as.length ≤ values.length →
    (∀ a ∈ as, K.encrypt a = .ok (e a)) →
    ∃ T : List (Bytes × BigNum × BigNum),
      Client.encryptLoop K sk values draws i as =
        .ok (T.map fun t => ⟨e t.1, BN.natToBytes t.2.2.toNat⟩) ∧
      T.map (fun t => (t.1, t.2.1)) = as.zip (values.drop i) ∧
      T.map (fun t => t.1) = as ∧
      ∀ t ∈ T, 0 ≤ t.2.2 ∧ ∃ rp rq, 0 ≤ rp ∧ 0 ≤ rq ∧ sk.encrypt t.2.1 rp rq = .ok t.2.2
  | [], _, _, _ => ⟨[], rfl, by simp, rfl, by simp⟩
  | a :: as, i, hlen, h => by
    simp only [List.length_cons] at hlen
    have hi : i < values.length := by omega
    have hmem : values[i] ∈ values := List.getElem_mem hi
    obtain ⟨c, hc, hc0⟩ := henc values[i] (draws i).1 (draws i).2 (hv _ hmem).1 (hv _ hmem).2
      (hd i).1 (hd i).2
    obtain ⟨T, h1, h2, h3, h4⟩ := client_encryptLoop hd henc hv as (i + 1) (by omega)
      (fun b hb => h b (by simp [hb]))
    refine ⟨(a, values[i], c) :: T, ?_, ?_, ?_, ?_⟩
    · simp only [Client.encryptLoop, h a (by simp), Res.ok_bind,
        List.getElem?_eq_getElem hi, hc, BN.toBytes_of_nonneg hc0, h1, Res.pure_eq,
        List.map_cons]
    · rw [List.map_cons, h2, List.drop_eq_getElem_cons hi, List.zip_cons_cons]
    · rw [List.map_cons, h3]
    · intro t ht
      rcases List.mem_cons.1 ht with rfl | ht
      · exact ⟨hc0, _, _, (hd i).1, (hd i).2, hc⟩
      · exact h4 t ht

/-- Adding up ciphertexts. -/
theorem sum_made {pk : PublicPaillier} {sk : PrivatePaillier} {τ : Type} (val ct : τ → Int)
    (dat : τ → Bytes) : ∀ (T : List τ) (m c : Int), Props.Made pk sk m c →
    (∀ t ∈ T, Props.Made pk sk (val t) (ct t) ∧ BN.ofBytes (dat t) = ct t) →
    Props.Made pk sk (m + (T.map val).sum)
      (T.foldl (fun acc t => pk.add acc (BN.ofBytes (dat t))) c)
  | [], m, c, h, _ => by simpa using h
  | t :: T, m, c, h, hT => by
    have ht := hT t (by simp)
    have := sum_made val ct dat T (m + val t) (pk.add c (ct t)) (.add h ht.1)
      (fun u hu => hT u (by simp [hu]))
    simp only [List.map_cons, List.sum_cons, List.foldl_cons, ht.2]
    rw [← add_assoc]
    exact this

end Protocol
end PJC
