import Verif.Model.DummyData
import Verif.Props.DataUtil
import Verif.Props.Rpc
/-
Property C83: the data generator program, and its files as input of client and server.
-/
namespace PJC.Data
open PJC

/-- The characters of generated identifiers are neither NUL nor newline. -/
theorem IsIdentifier.lineSafe {a : Bytes} (h : IsIdentifier a) : LineSafe a := by
  constructor
  · intro hb
    exact absurd (h.2 _ hb) (by decide)
  · intro hb
    exact absurd (h.2 _ hb) (by decide)

/-- What exit code 0 is expected to mean, for everything but the first line of the output: the two
files (when they are different) hold datasets of the requested sizes, with at least the requested
number of common identifiers and values below the maximum; no other file has changed; and the last
two lines printed are the requested intersection size and the sum of the client's values on common
identifiers. -/
def GoodDummyRun (flags : DummyFlags) (files : Bytes → Option Bytes) (x : DummyExit)
    (server client : List Bytes) (vals : List Int) : Prop :=
  readServerDataset (x.files flags.serverDataFile) = .ok server ∧
  readClientDataset (x.files flags.clientDataFile) = .ok (client, vals) ∧
  (∀ n, n ≠ flags.serverDataFile → n ≠ flags.clientDataFile → x.files n = files n) ∧
  (server.length : Int) = flags.serverDataSize ∧ (client.length : Int) = flags.clientDataSize ∧
  vals.length = client.length ∧ (∀ a ∈ server ++ client, IsIdentifier a) ∧
  flags.intersectionSize ≤ (client.filter fun a => decide (a ∈ server)).length ∧
  (∀ v ∈ vals, 0 ≤ v ∧ v < flags.maxAssociatedValue) ∧
  x.stdout.drop 1 = [str "Intersection size = " ++ intToDec flags.intersectionSize,
    str "Intersection sum = " ++ intToDec (sharedSum server client vals)]

/-- **C83**: exit code 0 means that the files are as promised. -/
theorem C83_exit_zero (rnd : DbRand) (hr : rnd.Ok) (flags : DummyFlags) (ioS ioC : WriteIo)
    (torn files : Bytes → Option Bytes) (hM : flags.maxAssociatedValue < 2 ^ 63)
    (hne : flags.serverDataFile ≠ flags.clientDataFile) (x : DummyExit)
    (h : dummyMain rnd flags ioS ioC torn files = .ok x) (h0 : x.code = 0) :
    ∃ server client vals, GoodDummyRun flags files x server client vals := by
  unfold dummyMain at h
  split at h
  · cases h; cases h0
  · cases h
  · cases h
  · rename_i server ids vals sum hg
    split at h
    · cases h; cases h0
    · cases h
    · cases h
    · rename_i sc hsc
      dsimp only at h
      split at h
      · cases h; cases h0
      · cases h
      · cases h
      · rename_i cc hcc
        obtain ⟨s1, s2, s3, s4, -, s6, s7, s8⟩ := C38_shape rnd hr _ _ _ _ hM server ids vals sum hg
        have e := Res.ok.injEq _ _ ▸ h
        subst e
        refine ⟨server, ids, vals, ?_, ?_, ?_, s1, s2, s3, s4, s6, s7, ?_⟩
        · simp only [setFile, hne, if_false, if_true]
          exact C36_server_round_trip ioS server sc
            (fun a ha => (s4 a (List.mem_append_left _ ha)).lineSafe) hsc
        · simp only [setFile, if_true]
          exact C36_client_round_trip ioC ids vals cc
            (fun a ha => (s4 a (List.mem_append_right _ ha)).lineSafe)
            (fun v hv => ⟨(s7 v hv).1, by have := (s7 v hv).2; omega⟩) hcc
        · intro n h1 h2
          simp only [setFile, h1, h2, if_false]
        · rw [← s8]
          rfl

/-- **C83**: it exits with 0 or 1, with 1 exactly for bad sizes or a file that cannot be written;
a run with exit code 1 prints nothing. -/
theorem C83_exit_one (rnd : DbRand) (hr : rnd.Ok) (flags : DummyFlags) (ioS ioC : WriteIo)
    (torn files : Bytes → Option Bytes) (hM : flags.maxAssociatedValue < 2 ^ 63) (x : DummyExit)
    (h : dummyMain rnd flags ioS ioC torn files = .ok x) :
    (x.code = 1 ∧ x.stdout = [] ∨ x.code = 0) ∧
    (x.code = 1 ↔ ¬ (GoodSizes flags.serverDataSize flags.clientDataSize flags.intersectionSize
        flags.maxAssociatedValue ∧
      ioS.opens = true ∧ ioS.closes = true ∧ ioC.opens = true ∧ ioC.closes = true)) := by
  have href := refuses rnd flags.serverDataSize flags.clientDataSize flags.intersectionSize
    flags.maxAssociatedValue hM
  unfold dummyMain at h
  split at h
  · rename_i c hc
    cases h
    refine ⟨Or.inl ⟨rfl, rfl⟩, by simp only [true_iff]; intro hcon; exact href.1 ⟨c, hc⟩ hcon.1⟩
  · cases h
  · cases h
  · rename_i server ids vals sum hg
    have hgood : GoodSizes flags.serverDataSize flags.clientDataSize flags.intersectionSize
        flags.maxAssociatedValue := by
      by_contra hcon
      obtain ⟨c, hc⟩ := href.2 hcon
      rw [hg] at hc
      cases hc
    obtain ⟨-, -, s3, -⟩ := C38_shape rnd hr _ _ _ _ hM server ids vals sum hg
    have hws : ∀ r, writeServerDataset ioS server = r →
        (ioS.opens = true ∧ ioS.closes = true ∧ ∃ c, r = .ok c) ∨
        (¬ (ioS.opens = true ∧ ioS.closes = true) ∧ ∃ c, r = .err c) := by
      rintro r rfl
      unfold writeServerDataset
      cases ioS.opens <;> cases ioS.closes <;> simp
    have hwc : ∀ r, writeClientDataset ioC ids vals = r →
        (ioC.opens = true ∧ ioC.closes = true ∧ ∃ c, r = .ok c) ∨
        (¬ (ioC.opens = true ∧ ioC.closes = true) ∧ ∃ c, r = .err c) := by
      rintro r rfl
      unfold writeClientDataset
      rw [if_neg (by simp [s3])]
      cases ioC.opens <;> cases ioC.closes <;> simp
    split at h
    · rename_i c hc
      cases h
      obtain ⟨-, -, d, hd⟩ | ⟨hn, -⟩ := hws _ hc
      · cases hd
      · refine ⟨Or.inl ⟨rfl, rfl⟩, ?_⟩
        simp only [true_iff]
        exact fun hcon => hn ⟨hcon.2.1, hcon.2.2.1⟩
    · cases h
    · cases h
    · rename_i sc hsc
      obtain ⟨o1, o2, -⟩ | ⟨-, d, hd⟩ := hws _ hsc
      swap
      · cases hd
      dsimp only at h
      split at h
      · rename_i c hc
        cases h
        obtain ⟨-, -, d, hd⟩ | ⟨hn, -⟩ := hwc _ hc
        · cases hd
        · refine ⟨Or.inl ⟨rfl, rfl⟩, ?_⟩
          simp only [true_iff]
          exact fun hcon => hn ⟨hcon.2.2.2.1, hcon.2.2.2.2⟩
      · cases h
      · cases h
      · rename_i cc hcc
        obtain ⟨o3, o4, -⟩ | ⟨-, d, hd⟩ := hwc _ hcc
        swap
        · cases hd
        have e := Res.ok.injEq _ _ ▸ h
        subst e
        refine ⟨Or.inr rfl, ?_⟩
        simp [hgood, o1, o2, o3, o4]

/-- The first line of the output of a successful run is expected to be this. -/
def firstLine (flags : DummyFlags) : Bytes :=
  str "Generated Server dataset of size " ++ intToDec flags.serverDataSize ++
    str ", Client dataset of size " ++ intToDec flags.clientDataSize

/-- The claim about the first line. -/
def C83FirstLineStatement : Prop :=
  ∀ (rnd : DbRand) (flags : DummyFlags) (ioS ioC : WriteIo) (torn files : Bytes → Option Bytes)
    (x : DummyExit), rnd.Ok → dummyMain rnd flags ioS ioC torn files = .ok x → x.code = 0 →
    x.stdout.take 1 = [firstLine flags]

/-- Draws for the examples: distinct identifiers, no shuffling. -/
def exampleRand : DbRand where
  common i _ := i
  server i _ := i + 12
  client i _ := i + 20
  shuffleServer l := l
  shuffleClient l := l
  value i := 7 * i + 5

theorem exampleRand_ok : exampleRand.Ok := ⟨fun _ => List.Perm.refl _, fun _ => List.Perm.refl _⟩

/-- The claim is false: the program prints the size of the client's dataset twice. -/
theorem C83_first_line_fails : ¬ C83FirstLineStatement := by
  intro h
  have := h exampleRand ⟨3, 2, 1, 10, [1], [2]⟩ ⟨true, true⟩ ⟨true, true⟩ (fun _ => none)
    (fun _ => none) _ exampleRand_ok rfl rfl
  revert this
  decide +kernel

/-- **C83**, partial: the first line is right if both datasets have the same size.  Missing from
the full statement: different sizes, where the server's size is misreported
(`C83_first_line_fails`). -/
theorem C83_first_line_partial (rnd : DbRand) (flags : DummyFlags) (ioS ioC : WriteIo)
    (torn files : Bytes → Option Bytes) (x : DummyExit)
    (hsame : flags.serverDataSize = flags.clientDataSize)
    (h : dummyMain rnd flags ioS ioC torn files = .ok x) (h0 : x.code = 0) :
    x.stdout.take 1 = [firstLine flags] := by
  unfold dummyMain at h
  split at h
  · cases h; cases h0
  · cases h
  · cases h
  · split at h
    · cases h; cases h0
    · cases h
    · cases h
    · dsimp only at h
      split at h
      · cases h; cases h0
      · cases h
      · cases h
      · have e := Res.ok.injEq _ _ ▸ h
        subst e
        simp [firstLine, hsame]

open PJC.Protocol in
/-- **C83, the whole tool chain**: generate the data, start the server on its file and run the
client program on its file.  The client exits with 0 and prints the number of its identifiers that
the server has, and the very sum that the generator printed.  Hypotheses: the cryptographic setup
of C01 for identifiers of this form (hashing is defined, without collisions among the generated
identifiers, primes as required and large enough for the values), and a client list without
accidental repetitions. -/
theorem C83_tool_chain {G : Type} [AddCommGroup G] [DecidableEq G] (rnd : DbRand) (hr : rnd.Ok)
    (flags : DummyFlags) (ioS ioC : WriteIo) (torn files : Bytes → Option Bytes)
    (hM : flags.maxAssociatedValue < 2 ^ 63)
    (hne : flags.serverDataFile ≠ flags.clientDataFile) (x : DummyExit)
    (h : dummyMain rnd flags ioS ioC torn files = .ok x) (h0 : x.code = 0) :
    ∃ server client vals, GoodDummyRun flags files x server client vals ∧
      ∀ (E : EcGroup G) (p q : Nat) (cfg cfg' : ExpCfg) (w : Nat) (rnds : Nat → ServerRand)
        (k1 k2 : ClientRand), Setup E client vals server p q → (∀ i, (rnds i).Ok) → k1.Ok →
        client.Nodup → sharedSum server client vals < ((p * q : Nat) : Int) ^ 2 →
        sharedSum server client vals < 2 ^ 64 →
        ∃ inputs y, readServerDataset (x.files flags.serverDataFile) = .ok inputs ∧
          executeProtocol (serviceNet rnds) (Server.init cfg' (.ok E) inputs, 0)
            (readClientDataset (x.files flags.clientDataFile))
            (fun els vals => Client.init cfg (.ok E) els vals p q w) k1 k2 = .ok y ∧
          y.code = 0 ∧ ∃ n sum : Nat, y.printed = some ((n : Int), sum) ∧
            n = (client.filter fun a => decide (a ∈ server)).length ∧
            x.stdout.drop 2 = [str "Intersection sum = " ++ intToDec sum] := by
  obtain ⟨server, client, vals, hg⟩ := C83_exit_zero rnd hr flags ioS ioC torn files hM hne x h h0
  refine ⟨server, client, vals, hg, ?_⟩
  intro E p q cfg cfg' w rnds k1 k2 hS hrn hk1 hnd hsm h64
  obtain ⟨y, hy, hy0, hpr⟩ := C66_end_to_end hS cfg cfg' w rnds hrn k1 k2 hk1 hnd hsm h64
  refine ⟨server, y, hg.1, ?_, hy0, _, _, hpr, rfl, ?_⟩
  · rw [hg.2.1]; exact hy
  · have hd := congrArg (List.drop 1) hg.2.2.2.2.2.2.2.2.2
    rw [List.drop_drop] at hd
    rw [hd]
    have hnn : 0 ≤ sharedSum server client vals := by
      apply List.sum_nonneg
      intro v hv
      obtain ⟨t, ht, rfl⟩ := List.mem_map.1 hv
      have := (List.mem_filter.1 ht).1
      exact (hg.2.2.2.2.2.2.2.2.1 _ (List.of_mem_zip this).2).1
    change [_] = [_]
    congr 3
    change _ = ((sharedSum server client vals).toNat : Int)
    omega

/-- The hypotheses of C83 are met: a run with three server and two client identifiers, of which
one is common. -/
example : ∃ x, dummyMain exampleRand ⟨3, 2, 1, 10, [1], [2]⟩ ⟨true, true⟩ ⟨true, true⟩
    (fun _ => none) (fun _ => none) = .ok x ∧ x.code = 0 ∧
    x.stdout.drop 2 = [str "Intersection sum = 5"] :=
  ⟨_, rfl, rfl, by decide +kernel⟩

/-- ... and the hypotheses of `C83_tool_chain` for the datasets of this run, with the toy curve and
the primes 5 and 7. -/
example : ∃ server client vals, generateRandomDatabases exampleRand 3 2 1 10 =
      .ok (server, (client, vals), 5) ∧
    Protocol.Setup toyEc client vals server 5 7 ∧ client.Nodup ∧
    sharedSum server client vals < ((5 * 7 : Nat) : Int) ^ 2 := by
  refine ⟨_, _, _, rfl, ⟨toyEc_lawful, ?_, ?_, rfl, ?_, ⟨by norm_num, rfl, by norm_num⟩,
    ⟨by norm_num, rfl, by norm_num⟩, ⟨2, by decide⟩, ⟨3, by decide⟩, by decide, by decide,
    by decide⟩, ?_, ?_⟩
  · intro a _
    refine ⟨_, rfl, ?_⟩
    revert a
    decide +kernel
  · decide +kernel
  · decide +kernel
  · decide +kernel
  · decide +kernel

example : ∃ x, dummyMain exampleRand ⟨3, 2, 5, 10, [1], [2]⟩ ⟨true, true⟩ ⟨true, true⟩
    (fun _ => none) (fun _ => none) = .ok x ∧ x.code = 1 := ⟨_, rfl, rfl⟩

end PJC.Data
