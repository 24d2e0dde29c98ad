import Verif.Lemmas.DyVrf
/-
C71, C72: what is hashed for a Fiat-Shamir challenge determines the statement and the first
message.
-/
namespace PJC
open Wire

/-- An `int64`. -/
def IsInt64 (x : Int) : Prop := -2 ^ 63 ≤ x ∧ x < 2 ^ 63

theorem PedersenProto.fields_wf (p : PedersenProto) : WF p.fields :=
  ((wf_bytesField (by norm_num) _).append (wf_msgField (by norm_num) _)).append
    (wf_bytesField (by norm_num) _)

theorem PedersenProto.fields_inj {p p' : PedersenProto} (h : p.fields = p'.fields)
    (hl : (enc p.fields).length < 2 ^ 64) : p = p' := by
  have h1 := congrArg (pick 1) h
  have h2 := congrArg (pick 2) h
  have h3 := congrArg (pick 3) h
  simp [PedersenProto.fields, pick_bytesField, pick_msgField] at h1 h2 h3
  simp only [PedersenProto.fields, bigNumVector, enc_append, List.length_append] at hl
  have e1 := bytesField_inj h1
  have e3 := bytesField_inj h3
  have e2 := repBytes_inj (msgField_inj' (wf_repBytes (by norm_num) _) (wf_repBytes (by norm_num) _)
    h2 (by omega))
  cases p; cases p'
  simp_all

theorem VrfParams.fields_wf (p : VrfParams) : WF p.fields :=
  ((((wf_int64Field (by norm_num) _).append (wf_int64Field (by norm_num) _)).append
    (wf_bytesField (by norm_num) _)).append (wf_bytesField (by norm_num) _)).append
    (wf_msgField (by norm_num) _)

theorem VrfParams.fields_inj {p p' : VrfParams} (hp : IsInt64 p.sec ∧ IsInt64 p.chal)
    (hp' : IsInt64 p'.sec ∧ IsInt64 p'.chal) (h : p.fields = p'.fields)
    (hl : (enc p.fields).length < 2 ^ 64) : p = p' := by
  have h1 := congrArg (pick 1) h
  have h2 := congrArg (pick 2) h
  have h3 := congrArg (pick 3) h
  have h4 := congrArg (pick 4) h
  have h5 := congrArg (pick 5) h
  simp [VrfParams.fields, pick_bytesField, pick_int64Field, pick_msgField] at h1 h2 h3 h4 h5
  simp only [VrfParams.fields, enc_append, List.length_append] at hl
  have e1 := int64Field_inj hp.1 hp'.1 h1
  have e2 := int64Field_inj hp.2 hp'.2 h2
  have e3 := bytesField_inj h3
  have e4 := bytesField_inj h4
  have e5 := PedersenProto.fields_inj (msgField_inj' p.pedersen.fields_wf p'.pedersen.fields_wf
    h5 (by omega)) (by have := enc_msgField 5 p.pedersen.fields; omega)
  cases p; cases p'
  simp_all

theorem vrfPublicKeyFields_inj {a b : Bytes} (h : vrfPublicKeyFields a = vrfPublicKeyFields b) : a = b :=
  bytesField_inj h

namespace Vrf

/-! ### C71 -/

/-- **C71**, key proofs: the hashed string determines parameters, public key and first message
(of any sizes whose encoding is shorter than 2^64 bytes). -/
theorem C71_key_transcript (p p' : VrfParams) (pk pk' d d' : Bytes)
    (hp : IsInt64 p.sec ∧ IsInt64 p.chal) (hp' : IsInt64 p'.sec ∧ IsInt64 p'.chal)
    (hl : (keyTranscript p pk d).length < 2 ^ 64)
    (h : keyTranscript p pk d = keyTranscript p' pk' d') : p = p' ∧ pk = pk' ∧ d = d' := by
  have hlen := transcript_length (label := keyLabel) (s := keyStatement p pk) (m := keyMessage1 d)
  have hw : ∀ p pk, WF (keyStatement p pk) := fun p pk =>
    (wf_msgField (by norm_num) _).append (wf_msgField (by norm_num) _)
  obtain ⟨hs, hm⟩ := transcript_injective' (hw p pk) (wf_bytesField (by norm_num) _)
    (hw p' pk') (wf_bytesField (by norm_num) _) hl h
  have h1 := congrArg (pick 1) hs
  have h2 := congrArg (pick 2) hs
  simp [keyStatement, pick_msgField] at h1 h2
  have hls : (enc (keyStatement p pk)).length < 2 ^ 64 := by
    unfold keyTranscript at hl
    omega
  simp only [keyStatement, vrfPublicKeyFields, enc_append, List.length_append] at hls
  refine ⟨?_, ?_, bytesField_inj hm⟩
  · exact VrfParams.fields_inj hp hp' (msgField_inj' p.fields_wf p'.fields_wf h1 (by omega))
      (by have := enc_msgField 1 p.fields; omega)
  · exact bytesField_inj (msgField_inj' (wf_bytesField (by norm_num) _)
      (wf_bytesField (by norm_num) _) h2 (by omega))

/-- **C71**, evaluation proofs: the hashed string determines parameters, public key, commitment,
evaluations and first message. -/
theorem C71_apply_transcript (p p' : VrfParams) (pk pk' cm cm' d d' : Bytes)
    (es es' ds ds' : List Bytes) (hp : IsInt64 p.sec ∧ IsInt64 p.chal)
    (hp' : IsInt64 p'.sec ∧ IsInt64 p'.chal)
    (hl : (applyTranscript p pk cm es d ds).length < 2 ^ 64)
    (h : applyTranscript p pk cm es d ds = applyTranscript p' pk' cm' es' d' ds') :
    p = p' ∧ pk = pk' ∧ cm = cm' ∧ es = es' ∧ d = d' ∧ ds = ds' := by
  have hlen := transcript_length (label := applyLabel) (s := applyStatement p pk cm es)
    (m := applyMessage1 d ds)
  have hw : ∀ p pk cm es, WF (applyStatement p pk cm es) := fun p pk cm es =>
    (((wf_msgField (by norm_num) _).append (wf_msgField (by norm_num) _)).append
      (wf_bytesField (by norm_num) _)).append (wf_msgField (by norm_num) _)
  have hw2 : ∀ d ds, WF (applyMessage1 d ds) := fun d ds =>
    (wf_bytesField (by norm_num) _).append (wf_msgField (by norm_num) _)
  obtain ⟨hs, hm⟩ := transcript_injective' (hw p pk cm es) (hw2 d ds)
    (hw p' pk' cm' es') (hw2 d' ds') hl h
  have h1 := congrArg (pick 1) hs
  have h2 := congrArg (pick 2) hs
  have h3 := congrArg (pick 3) hs
  have h4 := congrArg (pick 4) hs
  simp [applyStatement, pick_msgField, pick_bytesField] at h1 h2 h3 h4
  have g1 := congrArg (pick 1) hm
  have g2 := congrArg (pick 2) hm
  simp [applyMessage1, pick_msgField, pick_bytesField] at g1 g2
  have hls : (enc (applyStatement p pk cm es)).length < 2 ^ 64 := by
    unfold applyTranscript at hl
    omega
  have hlm : (enc (applyMessage1 d ds)).length < 2 ^ 64 := by
    unfold applyTranscript at hl
    omega
  simp only [applyStatement, vrfPublicKeyFields, ecPointVector, enc_append, List.length_append] at hls
  simp only [applyMessage1, ecPointVector, enc_append, List.length_append] at hlm
  refine ⟨?_, ?_, bytesField_inj h3, ?_, bytesField_inj g1, ?_⟩
  · exact VrfParams.fields_inj hp hp' (msgField_inj' p.fields_wf p'.fields_wf h1 (by omega))
      (by have := enc_msgField 1 p.fields; omega)
  · exact bytesField_inj (msgField_inj' (wf_bytesField (by norm_num) _)
      (wf_bytesField (by norm_num) _) h2 (by omega))
  · exact repBytes_inj (msgField_inj' (wf_repBytes (by norm_num) _)
      (wf_repBytes (by norm_num) _) h4 (by omega))
  · exact repBytes_inj (msgField_inj' (wf_repBytes (by norm_num) _)
      (wf_repBytes (by norm_num) _) g2 (by omega))

/-- **C71**, separation: no string is hashed both for a key proof and for an evaluation proof. -/
theorem C71_separate (p p' : VrfParams) (pk pk' cm d d' : Bytes) (es ds : List Bytes) :
    keyTranscript p pk d ≠ applyTranscript p' pk' cm es d' ds := by
  intro h
  have h1 := congrArg (List.take 40) h
  unfold keyTranscript applyTranscript transcript at h1
  rw [List.append_assoc keyLabel, List.append_assoc applyLabel,
    List.take_append_of_le_length (by decide +kernel : 40 ≤ keyLabel.length),
    List.take_append_of_le_length (by decide +kernel : 40 ≤ applyLabel.length)] at h1
  exact absurd h1 (by decide +kernel)

example : (keyTranscript ⟨2, 3, [], [1], ⟨[77], [[2], [3]], [5]⟩⟩ [9] [7]).length < 2 ^ 64 ∧
    keyTranscript ⟨2, 3, [], [1], ⟨[77], [[2], [3]], [5]⟩⟩ [9] [7] ≠
      keyTranscript ⟨2, 3, [], [1], ⟨[77], [[2, 3]], [5]⟩⟩ [9] [7] ∧
    keyTranscript ⟨2, 3, [], [1], ⟨[77], [[2], [3]], [5]⟩⟩ [9] [7] ≠
      keyTranscript ⟨2, 3, [1], [], ⟨[77], [[2], [3]], [5]⟩⟩ [9] [7] := by
  decide +kernel

end Vrf

/-! ### C72 -/

namespace Ped

/-- **C72** is false: the string hashed for a proof of correctly generated Pedersen parameters is a
plain concatenation, and two different statements (here `g = 258, h = 3` and `g = 1, h = 515`, same
modulus and first message) give the same string and so the same challenges. -/
theorem C72_fails : ∃ (g h g' h' n : Int) (ds : List Int) (b : Bytes), (g, h) ≠ (g', h') ∧
    0 < g ∧ g < n ∧ 0 < h ∧ h < n ∧ 0 < g' ∧ g' < n ∧ 0 < h' ∧ h' < n ∧
    Int.gcd g n = 1 ∧ Int.gcd h n = 1 ∧ Int.gcd g' n = 1 ∧ Int.gcd h' n = 1 ∧
    transcript g h n ds = .ok b ∧ transcript g' h' n ds = .ok b ∧
    ∀ (H : Hashes) (reps : Int),
      genProofChallenge H g h n ds reps = genProofChallenge H g' h' n ds reps := by
  have e1 : transcript 258 3 667 [7] = .ok [1, 2, 3, 2, 155, 7] := by decide +kernel
  have e2 : transcript 1 515 667 [7] = .ok [1, 2, 3, 2, 155, 7] := by decide +kernel
  refine ⟨258, 3, 1, 515, 667, [7], [1, 2, 3, 2, 155, 7], by decide, by decide, by decide, by decide,
    by decide, by decide, by decide, by decide, by decide, by decide, by decide, by decide, by decide,
    e1, e2, ?_⟩
  intro H reps
  unfold genProofChallenge
  rw [e1, e2]

theorem flatten_inj_of_lengths : ∀ {a b : List Bytes}, a.map List.length = b.map List.length →
    a.flatten = b.flatten → a = b
  | [], [], _, _ => rfl
  | [], _ :: _, h, _ => by simp at h
  | _ :: _, [], h, _ => by simp at h
  | x :: a, y :: b, h, hf => by
    simp only [List.map_cons, List.cons.injEq] at h
    simp only [List.flatten_cons] at hf
    obtain ⟨h1, h2⟩ := List.append_inj hf h.1
    rw [h1, flatten_inj_of_lengths h.2 h2]

/-- What holds of **C72**: among statements and first messages whose numbers have the same sizes
in bytes, the hashed string determines them all.  Missing: sizes that differ. -/
theorem C72_same_sizes_partial (g h n g' h' n' : Int) (ds ds' : List Int) (b : Bytes)
    (hb : transcript g h n ds = .ok b) (hb' : transcript g' h' n' ds' = .ok b)
    (hsize : [g, h, n].map (fun x => (BN.natToBytes x.toNat).length) =
      [g', h', n'].map (fun x => (BN.natToBytes x.toNat).length))
    (hsize' : ds.map (fun x => (BN.natToBytes x.toNat).length) =
      ds'.map (fun x => (BN.natToBytes x.toNat).length)) :
    g = g' ∧ h = h' ∧ n = n' ∧ ds = ds' := by
  have inv : ∀ {x : Int} {y : Bytes}, BN.toBytes x = .ok y → 0 ≤ x ∧ y = BN.natToBytes x.toNat := by
    intro x y hx
    unfold BN.toBytes at hx
    split at hx
    · cases hx
    · cases hx
      exact ⟨by omega, rfl⟩
  have key : ∀ {g h n : Int} {ds : List Int}, transcript g h n ds = .ok b →
      0 ≤ g ∧ 0 ≤ h ∧ 0 ≤ n ∧ (∀ x ∈ ds, 0 ≤ x) ∧
      b = ((BN.natToBytes g.toNat) :: (BN.natToBytes h.toNat) :: (BN.natToBytes n.toNat) ::
        ds.map (fun x => BN.natToBytes x.toNat)).flatten := by
    intro g h n ds hb
    unfold transcript at hb
    simp only [Res.bind_eq_ok, Res.pure_eq, Res.ok.injEq] at hb
    obtain ⟨bg, hg, bh, hh, bn, hn, bd, hd, rfl⟩ := hb
    obtain ⟨h1, rfl⟩ := inv hg
    obtain ⟨h2, rfl⟩ := inv hh
    obtain ⟨h3, rfl⟩ := inv hn
    have hd' : bd = ds.map (fun x => BN.natToBytes x.toNat) ∧ ∀ x ∈ ds, 0 ≤ x := by
      clear hsize' hb' hsize hb
      induction ds generalizing bd with
      | nil => simp at hd; simp [hd]
      | cons x ds ih =>
        simp only [List.mapM_cons, Res.bind_eq_ok, Res.pure_eq, Res.ok.injEq] at hd
        obtain ⟨y, hy, ys, hys, rfl⟩ := hd
        obtain ⟨h4, rfl⟩ := inv hy
        obtain ⟨h5, h6⟩ := ih ys hys
        exact ⟨by rw [h5]; rfl, by simpa using ⟨h4, h6⟩⟩
    refine ⟨h1, h2, h3, hd'.2, ?_⟩
    rw [hd'.1]
    simp
  obtain ⟨a1, a2, a3, a4, a5⟩ := key hb
  obtain ⟨b1, b2, b3, b4, b5⟩ := key hb'
  rw [a5] at b5
  simp only [List.map_cons, List.map_nil, List.cons.injEq, and_true] at hsize
  have := flatten_inj_of_lengths (by
    simp only [List.map_cons, List.map_map, Function.comp_def, List.cons.injEq]
    exact ⟨hsize.1, hsize.2.1, hsize.2.2, hsize'⟩) b5
  simp only [List.cons.injEq] at this
  obtain ⟨c1, c2, c3, c4⟩ := this
  have i1 := BN.natToBytes_injective c1
  have i2 := BN.natToBytes_injective c2
  have i3 := BN.natToBytes_injective c3
  refine ⟨by omega, by omega, by omega, ?_⟩
  clear hb hb' hsize hsize' key a5 b5
  induction ds generalizing ds' with
  | nil => cases ds' with
    | nil => rfl
    | cons _ _ => simp at c4
  | cons x ds ih => cases ds' with
    | nil => simp at c4
    | cons y ds' =>
      simp only [List.map_cons, List.cons.injEq] at c4
      have i4 := BN.natToBytes_injective c4.1
      have := a4 x (by simp)
      have := b4 y (by simp)
      rw [ih ds' (fun x hx => a4 x (by simp [hx])) (fun x hx => b4 x (by simp [hx])) c4.2,
        show x = y by omega]

end Ped
end PJC
