import Verif.Model.BbSig
import Verif.Props.Transcript
/-
C68, C74: what is hashed for the challenges of the oblivious signature.
-/
namespace PJC
open Wire

theorem repMsg_inj' {α : Type} {f : α → List Field} {n : Nat} (wf : ∀ a, WF (f a))
    (inj : ∀ a b, f a = f b → (enc (f a)).length < 2 ^ 64 → a = b) {as bs : List α}
    (h : repMsg n (as.map f) = repMsg n (bs.map f))
    (hl : (enc (repMsg n (as.map f))).length < 2 ^ 64) : as = bs := by
  have h1 : ∀ m ∈ as.map f, (enc m).length < 2 ^ 64 := fun m hm => by
    have := enc_repMsg n hm
    omega
  have h2 : ∀ m ∈ bs.map f, (enc m).length < 2 ^ 64 := fun m hm => by
    have := enc_repMsg n hm
    rw [← h] at this
    omega
  have w : ∀ (l : List α), ∀ m ∈ l.map f, WF m := by
    intro l m hm
    obtain ⟨a, _, rfl⟩ := List.mem_map.1 hm
    exact wf a
  have e := repMsg_inj (fun m hm => (w as m hm).fits (h1 m hm)) (fun m hm => (w bs m hm).fits (h2 m hm)) h
  clear h hl h2
  induction as generalizing bs with
  | nil => cases bs with
    | nil => rfl
    | cons _ _ => simp at e
  | cons a as ih => cases bs with
    | nil => simp at e
    | cons b bs =>
      simp only [List.map_cons, List.cons.injEq] at e
      rw [inj a b e.1 (h1 _ (by simp)), ih (fun m hm => h1 m (by simp [hm])) e.2]

theorem CsCtProto.fields_wf (p : CsCtProto) : WF p.fields :=
  (wf_bytesField (by norm_num) _).append (wf_msgField (by norm_num) _)

theorem CsCtProto.fields_inj {p p' : CsCtProto} (h : p.fields = p'.fields)
    (hl : (enc p.fields).length < 2 ^ 64) : p = p' := by
  have h1 := congrArg (pick 1) h
  have h2 := congrArg (pick 2) h
  simp [CsCtProto.fields, pick_bytesField, pick_msgField] at h1 h2
  simp only [CsCtProto.fields, bigNumVector, enc_append, List.length_append] at hl
  have e1 := bytesField_inj h1
  have e2 := repBytes_inj (msgField_inj' (wf_repBytes (by norm_num) _) (wf_repBytes (by norm_num) _)
    h2 (by omega))
  cases p; cases p'
  simp_all

theorem CsPublicKeyProto.fields_wf {p : CsPublicKeyProto} (hs : p.s < 2 ^ 64) : WF p.fields :=
  (((wf_bytesField (by norm_num) _).append (wf_bytesField (by norm_num) _)).append
    (wf_msgField (by norm_num) _)).append (wf_uint64Field (by norm_num) hs)

theorem CsPublicKeyProto.fields_inj {p p' : CsPublicKeyProto}
    (h : p.fields = p'.fields) (hl : (enc p.fields).length < 2 ^ 64) :
    p = p' := by
  have h1 := congrArg (pick 1) h
  have h2 := congrArg (pick 2) h
  have h3 := congrArg (pick 3) h
  have h4 := congrArg (pick 4) h
  simp [CsPublicKeyProto.fields, pick_bytesField, pick_msgField, pick_uint64Field] at h1 h2 h3 h4
  simp only [CsPublicKeyProto.fields, bigNumVector, enc_append, List.length_append] at hl
  have e1 := bytesField_inj h1
  have e2 := bytesField_inj h2
  have e3 := repBytes_inj (msgField_inj' (wf_repBytes (by norm_num) _) (wf_repBytes (by norm_num) _)
    h3 (by omega))
  have e4 := uint64Field_inj h4
  cases p; cases p'
  simp_all

/-- The numbers of the parameters fit their proto types (`int64`, `int64`, `uint64`). -/
def BbParams.Typed (p : BbParams) : Prop := IsInt64 p.sec ∧ IsInt64 p.chal ∧ p.cs.s < 2 ^ 64

theorem BbParams.fields_wf (p : BbParams) : WF p.fields :=
  (((((wf_int64Field (by norm_num) _).append (wf_int64Field (by norm_num) _)).append
    (wf_bytesField (by norm_num) _)).append (wf_bytesField (by norm_num) _)).append
    (wf_msgField (by norm_num) _)).append (wf_msgField (by norm_num) _)

theorem BbParams.fields_inj {p p' : BbParams} (hp : p.Typed) (hp' : p'.Typed)
    (h : p.fields = p'.fields) (hl : (enc p.fields).length < 2 ^ 64) : p = p' := by
  have h1 := congrArg (pick 1) h
  have h2 := congrArg (pick 2) h
  have h3 := congrArg (pick 3) h
  have h4 := congrArg (pick 4) h
  have h5 := congrArg (pick 5) h
  have h6 := congrArg (pick 6) h
  simp [BbParams.fields, pick_bytesField, pick_int64Field, pick_msgField] at h1 h2 h3 h4 h5 h6
  simp only [BbParams.fields, enc_append, List.length_append] at hl
  have e1 := int64Field_inj hp.1 hp'.1 h1
  have e2 := int64Field_inj hp.2.1 hp'.2.1 h2
  have e3 := bytesField_inj h3
  have e4 := bytesField_inj h4
  have e5 := CsPublicKeyProto.fields_inj (msgField_inj' (CsPublicKeyProto.fields_wf hp.2.2)
    (CsPublicKeyProto.fields_wf hp'.2.2) h5 (by omega))
    (by have := enc_msgField 5 p.cs.fields; omega)
  have e6 := PedersenProto.fields_inj (msgField_inj' p.pedersen.fields_wf p'.pedersen.fields_wf
    h6 (by omega)) (by have := enc_msgField 6 p.pedersen.fields; omega)
  cases p; cases p'
  simp_all

theorem BbPublicKey.fields_wf (p : BbPublicKey) : WF p.fields :=
  (wf_repMsg (by norm_num) _).append (wf_repMsg (by norm_num) _)

theorem BbPublicKey.fields_inj {p p' : BbPublicKey} (h : p.fields = p'.fields)
    (hl : (enc p.fields).length < 2 ^ 64) : p = p' := by
  have h1 := congrArg (pick 1) h
  have h2 := congrArg (pick 2) h
  simp [BbPublicKey.fields, pick_repMsg] at h1 h2
  simp only [BbPublicKey.fields, enc_append, List.length_append] at hl
  have e1 := repMsg_inj' CsCtProto.fields_wf (fun _ _ => CsCtProto.fields_inj) h1 (by omega)
  have e2 := repMsg_inj' CsCtProto.fields_wf (fun _ _ => CsCtProto.fields_inj) h2 (by omega)
  cases p; cases p'
  simp_all

theorem BbRequest.fields_wf {p : BbRequest} (hn : p.num < 2 ^ 64) : WF p.fields :=
  (wf_uint64Field (by norm_num) hn).append (wf_repMsg (by norm_num) _)

theorem BbRequest.fields_inj {p p' : BbRequest} (h : p.fields = p'.fields)
    (hl : (enc p.fields).length < 2 ^ 64) : p = p' := by
  have h1 := congrArg (pick 1) h
  have h3 := congrArg (pick 3) h
  simp [BbRequest.fields, pick_repMsg, pick_uint64Field] at h1 h3
  simp only [BbRequest.fields, enc_append, List.length_append] at hl
  have e1 := uint64Field_inj h1
  have e2 := repMsg_inj' CsCtProto.fields_wf (fun _ _ => CsCtProto.fields_inj) h3 (by omega)
  cases p; cases p'
  simp_all

theorem BbReqMessage1.fields_wf (p : BbReqMessage1) : WF p.fields :=
  ((((((((wf_bytesField (by norm_num) _).append (wf_bytesField (by norm_num) _)).append
    (wf_msgField (by norm_num) _)).append (wf_bytesField (by norm_num) _)).append
    (wf_bytesField (by norm_num) _)).append (wf_bytesField (by norm_num) _)).append
    (wf_bytesField (by norm_num) _)).append (wf_bytesField (by norm_num) _)).append
    (wf_repMsg (by norm_num) _)

theorem BbReqMessage1.fields_inj {p p' : BbReqMessage1} (h : p.fields = p'.fields)
    (hl : (enc p.fields).length < 2 ^ 64) : p = p' := by
  have h1 := congrArg (pick 1) h
  have h2 := congrArg (pick 2) h
  have h3 := congrArg (pick 3) h
  have h4 := congrArg (pick 4) h
  have h5 := congrArg (pick 5) h
  have h6 := congrArg (pick 6) h
  have h7 := congrArg (pick 7) h
  have h8 := congrArg (pick 8) h
  have h10 := congrArg (pick 10) h
  simp [BbReqMessage1.fields, pick_bytesField, pick_repMsg, pick_msgField] at h1 h2 h3 h4 h5 h6 h7 h8 h10
  simp only [BbReqMessage1.fields, bigNumVector, enc_append, List.length_append] at hl
  have e1 := bytesField_inj h1
  have e2 := bytesField_inj h2
  have e3 := repBytes_inj (msgField_inj' (wf_repBytes (by norm_num) _) (wf_repBytes (by norm_num) _)
    h3 (by omega))
  have e4 := bytesField_inj h4
  have e5 := bytesField_inj h5
  have e6 := bytesField_inj h6
  have e7 := bytesField_inj h7
  have e8 := bytesField_inj h8
  have e10 := repMsg_inj' CsCtProto.fields_wf (fun _ _ => CsCtProto.fields_inj) h10 (by omega)
  cases p; cases p'
  simp_all

theorem BbRespMessage1.fields_wf (p : BbRespMessage1) : WF p.fields :=
  (((wf_msgField (by norm_num) _).append (wf_bytesField (by norm_num) _)).append
    (wf_msgField (by norm_num) _)).append (wf_repMsg (by norm_num) _)

theorem BbRespMessage1.fields_inj {p p' : BbRespMessage1} (h : p.fields = p'.fields)
    (hl : (enc p.fields).length < 2 ^ 64) : p = p' := by
  have h1 := congrArg (pick 1) h
  have h2 := congrArg (pick 2) h
  have h4 := congrArg (pick 4) h
  have h5 := congrArg (pick 5) h
  simp [BbRespMessage1.fields, pick_bytesField, pick_repMsg, pick_msgField] at h1 h2 h4 h5
  simp only [BbRespMessage1.fields, enc_append, List.length_append] at hl
  have e1 := repBytes_inj (msgField_inj' (wf_repBytes (by norm_num) _) (wf_repBytes (by norm_num) _)
    h1 (by simp only [bigNumVector] at hl; omega))
  have e2 := bytesField_inj h2
  have e4 := repBytes_inj (msgField_inj' (wf_repBytes (by norm_num) _) (wf_repBytes (by norm_num) _)
    h4 (by simp only [ecPointVector] at hl; omega))
  have e5 := repMsg_inj' (f := bigNumVector) (fun _ => wf_repBytes (by norm_num) _)
    (fun _ _ h _ => repBytes_inj h) h5 (by omega)
  cases p; cases p'
  simp_all

namespace Bb

theorem ReqStatement.fields_wf {s : ReqStatement} : WF s.fields :=
  ((((((((wf_msgField (by norm_num) _).append (wf_msgField (by norm_num) _)).append
    (wf_bytesField (by norm_num) _)).append (wf_bytesField (by norm_num) _)).append
    (wf_msgField (by norm_num) _)).append (wf_bytesField (by norm_num) _)).append
    (wf_bytesField (by norm_num) _)).append (wf_bytesField (by norm_num) _)).append
    (wf_msgField (by norm_num) _)

theorem RespStatement.fields_wf {s : RespStatement} : WF s.fields :=
  ((((((wf_msgField (by norm_num) _).append (wf_msgField (by norm_num) _)).append
    (wf_bytesField (by norm_num) _)).append (wf_bytesField (by norm_num) _)).append
    (wf_msgField (by norm_num) _)).append (wf_msgField (by norm_num) _)).append
    (wf_bytesField (by norm_num) _)

/-- The numbers of a request statement fit their proto types. -/
def ReqStatement.Typed (s : ReqStatement) : Prop := s.params.Typed ∧ s.request.num < 2 ^ 64

/-- The numbers of a response statement fit their proto types. -/
def RespStatement.Typed (s : RespStatement) : Prop := s.params.Typed ∧ s.request.num < 2 ^ 64

/-! ### C74: binding -/

/-- **C74**, requests: the string hashed for a request proof determines parameters, public key,
commitments, request and first message (for strings shorter than 2^64 bytes). -/
theorem C74_request_transcript (s s' : ReqStatement) (m m' : BbReqMessage1) (hs : s.Typed)
    (hs' : s'.Typed) (hl : (requestTranscript s m).length < 2 ^ 64)
    (h : requestTranscript s m = requestTranscript s' m') : s = s' ∧ m = m' := by
  have hlen := transcript_length (label := requestLabel) (s := s.fields) (m := m.fields)
  have hls : (enc s.fields).length < 2 ^ 64 := by unfold requestTranscript at hl; omega
  have hlm : (enc m.fields).length < 2 ^ 64 := by unfold requestTranscript at hl; omega
  obtain ⟨es, em⟩ := transcript_injective' ReqStatement.fields_wf m.fields_wf
    ReqStatement.fields_wf m'.fields_wf hl h
  refine ⟨?_, BbReqMessage1.fields_inj em hlm⟩
  have h1 := congrArg (pick 1) es
  have h2 := congrArg (pick 2) es
  have h3 := congrArg (pick 3) es
  have h4 := congrArg (pick 4) es
  have h5 := congrArg (pick 5) es
  have h6 := congrArg (pick 6) es
  have h7 := congrArg (pick 7) es
  have h8 := congrArg (pick 8) es
  have h9 := congrArg (pick 9) es
  simp [ReqStatement.fields, pick_bytesField, pick_msgField] at h1 h2 h3 h4 h5 h6 h7 h8 h9
  simp only [ReqStatement.fields, bigNumVector, enc_append, List.length_append] at hls
  have e1 := BbParams.fields_inj hs.1 hs'.1 (msgField_inj' s.params.fields_wf s'.params.fields_wf h1
    (by omega)) (by have := enc_msgField 1 s.params.fields; omega)
  have e2 := BbPublicKey.fields_inj (msgField_inj' s.publicKey.fields_wf s'.publicKey.fields_wf h2
    (by omega)) (by have := enc_msgField 2 s.publicKey.fields; omega)
  have e3 := bytesField_inj h3
  have e4 := bytesField_inj h4
  have e5 := repBytes_inj (msgField_inj' (wf_repBytes (by norm_num) _) (wf_repBytes (by norm_num) _)
    h5 (by omega))
  have e6 := bytesField_inj h6
  have e7 := bytesField_inj h7
  have e8 := bytesField_inj h8
  have e9 := BbRequest.fields_inj (msgField_inj' (BbRequest.fields_wf hs.2)
    (BbRequest.fields_wf hs'.2) h9 (by omega))
    (by have := enc_msgField 9 s.request.fields; omega)
  cases s; cases s'
  simp_all

/-- **C74**, responses: the string hashed for a response proof determines parameters, public key,
commitments, request, response and first message. -/
theorem C74_response_transcript (s s' : RespStatement) (m m' : BbRespMessage1) (hs : s.Typed)
    (hs' : s'.Typed) (hl : (responseTranscript s m).length < 2 ^ 64)
    (h : responseTranscript s m = responseTranscript s' m') : s = s' ∧ m = m' := by
  have hlen := transcript_length (label := responseLabel) (s := s.fields) (m := m.fields)
  have hls : (enc s.fields).length < 2 ^ 64 := by unfold responseTranscript at hl; omega
  have hlm : (enc m.fields).length < 2 ^ 64 := by unfold responseTranscript at hl; omega
  obtain ⟨es, em⟩ := transcript_injective' RespStatement.fields_wf m.fields_wf
    RespStatement.fields_wf m'.fields_wf hl h
  refine ⟨?_, BbRespMessage1.fields_inj em hlm⟩
  have h1 := congrArg (pick 1) es
  have h2 := congrArg (pick 2) es
  have h3 := congrArg (pick 3) es
  have h4 := congrArg (pick 4) es
  have h5 := congrArg (pick 5) es
  have h6 := congrArg (pick 6) es
  have h7 := congrArg (pick 7) es
  simp [RespStatement.fields, pick_bytesField, pick_msgField] at h1 h2 h3 h4 h5 h6 h7
  simp only [RespStatement.fields, ecPointVector, enc_append, List.length_append] at hls
  simp only [ecPointVector] at h6
  have e1 := BbParams.fields_inj hs.1 hs'.1 (msgField_inj' s.params.fields_wf s'.params.fields_wf h1
    (by omega)) (by have := enc_msgField 1 s.params.fields; omega)
  have e2 := BbPublicKey.fields_inj (msgField_inj' s.publicKey.fields_wf s'.publicKey.fields_wf h2
    (by omega)) (by have := enc_msgField 2 s.publicKey.fields; omega)
  have e3 := bytesField_inj h3
  have e4 := bytesField_inj h4
  have e5 := BbRequest.fields_inj (msgField_inj' (BbRequest.fields_wf hs.2)
    (BbRequest.fields_wf hs'.2) h5 (by omega))
    (by have := enc_msgField 5 s.request.fields; omega)
  have e6 : s.response = s'.response := by
    have l6 : (enc (msgField 1 (repBytes 1 s.response))).length < 2 ^ 64 := by
      have := enc_msgField 6 (msgField 1 (repBytes 1 s.response))
      omega
    exact repBytes_inj (msgField_inj' (wf_repBytes (by norm_num) _) (wf_repBytes (by norm_num) _)
      (msgField_inj' (wf_msgField (by norm_num) _) (wf_msgField (by norm_num) _) h6 (by omega)) l6)
  have e7 := bytesField_inj h7
  cases s; cases s'
  simp_all

/-! ### C68: separation -/

/-- **C68**: no string is hashed both for a request proof and for a response proof. -/
theorem C68_separate (s : ReqStatement) (m : BbReqMessage1) (s' : RespStatement)
    (m' : BbRespMessage1) (hl : (requestTranscript s m).length < 2 ^ 64) :
    requestTranscript s m ≠ responseTranscript s' m' := by
  intro h
  obtain ⟨es, _⟩ := transcript_injective' ReqStatement.fields_wf m.fields_wf
    RespStatement.fields_wf m'.fields_wf hl h
  have h9 := congrArg (pick 9) es
  simp [ReqStatement.fields, RespStatement.fields, pick_bytesField, pick_msgField] at h9
  simp [msgField] at h9

/-- The separation does not come from the label: both strings start with the same one, which names
the response proof. -/
theorem C68_same_label (s : ReqStatement) (m : BbReqMessage1) (s' : RespStatement)
    (m' : BbRespMessage1) :
    ∃ rest rest', requestTranscript s m =
        str "BbObliviousSignature::GenerateResponseProofChallenge" ++ rest ∧
      responseTranscript s' m' =
        str "BbObliviousSignature::GenerateResponseProofChallenge" ++ rest' := by
  exact ⟨_, _, List.append_assoc .., List.append_assoc ..⟩

/-- A concrete pair of statements: typed, short, and the strings differ. -/
example :
    let p : BbParams := ⟨2, 3, [], [1], ⟨[35], [2], [[4], [5]], 2⟩, ⟨[77], [[2], [3]], [5]⟩⟩
    let pk : BbPublicKey := ⟨[⟨[3], [[1], [2]]⟩], [⟨[4], [[1], [2]]⟩]⟩
    let s : ReqStatement := ⟨p, pk, [9], [8], [[7], [6]], [5], [4], [3], ⟨2, [⟨[3], [[1], [2]]⟩]⟩⟩
    let s' : ReqStatement := ⟨p, pk, [9], [8], [[7, 6]], [5], [4], [3], ⟨2, [⟨[3], [[1], [2]]⟩]⟩⟩
    let m : BbReqMessage1 := ⟨[1], [2], [[3], [4]], [5], [6], [7], [8], [9], [⟨[3], [[1], [2]]⟩]⟩
    s.Typed ∧ (requestTranscript s m).length < 2 ^ 64 ∧
      requestTranscript s m ≠ requestTranscript s' m := by
  refine ⟨⟨⟨⟨by decide, by decide⟩, ⟨by decide, by decide⟩, by decide⟩, by decide⟩, ?_, ?_⟩ <;>
    decide +kernel

end Bb
end PJC
