import Verif.Model.RecordIO
/-
Model of /repo/private_join_and_compute/util/process_record_file_util.h and of `JoinPath`
(/repo/private_join_and_compute/util/file.h, file.cc).
-/
namespace PJC.Rec

variable {κ I O : Type} [LinearOrder κ]

/-- process_record_file_util.h:94-100, the loop of one thread over `chunk[i], chunk[i+1], ...`
(`n` of them).  `f k x` is what the call of `record_transformer` on the `k`-th record of the
input, parsed to `x`, returns in the execution at hand; it may differ from call to call, as for
an encryption with fresh randomness.  `base` is the number of records in earlier chunks.
`chunk.at` throws outside of the chunk. -/
def sliceLoop (f : Nat → I → Res O) (chunk : List I) (base : Nat) : Nat → Nat → Res (List O)
  | 0, _ => .ok []
  | n + 1, i =>
    match chunk[i]? with
    | none => .crash
    | some x => do
      let y ← f (base + i) x
      let ys ← sliceLoop f chunk base n (i + 1)
      .ok (y :: ys)

/-- process_record_file_util.h:80-102, the results of the threads.  Each thread only reads
`chunk` and writes to its own vector, so the schedule cannot be seen in the results except
through the values of `f`. -/
def threadResults (f : Nat → I → Res O) (chunk : List I) (base threads : Nat) :
    List (Res (List O)) :=
  let per := (chunk.length + threads - 1) / threads
  (List.range threads).map fun j =>
    let start := j * per
    let stop := min ((j + 1) * per) chunk.length
    sliceLoop f chunk base (stop - start) start

/-- process_record_file_util.h:110-112. -/
def writeOutputs (Ω : Faults) (ser : O → Bytes) : List O → Shard κ → Res Unit × Shard κ
  | [], w => (.ok (), w)
  | y :: ys, w =>
    match w.write Ω (ser y) with
    | (.ok _, w) => writeOutputs Ω ser ys w
    | x => x

/-- process_record_file_util.h:107-113.  `future.get()` rethrows. -/
def writeResults (Ω : Faults) (ser : O → Bytes) :
    List (Res (List O)) → Shard κ → Res Unit × Shard κ
  | [], w => (.ok (), w)
  | .ok ys :: rest, w =>
    match writeOutputs Ω ser ys w with
    | (.ok _, w) => writeResults Ω ser rest w
    | x => x
  | .err e :: _, w => (.err e, w)
  | .crash :: _, w => (.crash, w)
  | .ub :: _, w => (.ub, w)

/-- process_record_file_util.h:72-77, entered with `has_more` true; the first argument is
`data_chunk_size - num_records_read`.  `parse` is `ProtoUtils::FromString` (proto_util.h:54-59),
which ignores whether parsing succeeded. -/
def readChunk (junk : Nat) (parse : Bytes → I) : Nat → Stream → Res (List I × Bool) × Stream
  | 0, s => (.ok ([], true), s)
  | n + 1, s =>
    match readRecord junk s with
    | (.ok r, s) =>
      match s.hasMore with
      | (false, s) => (.ok ([parse r], false), s)
      | (true, s) =>
        match readChunk junk parse n s with
        | (.ok (xs, more), s) => (.ok (parse r :: xs, more), s)
        | x => x
    | (.err e, s) => (.err e, s)
    | (.crash, s) => (.crash, s)
    | (.ub, s) => (.ub, s)

/-- process_record_file_util.h:68-114.  Division by a thread count of 0 is undefined; with a
chunk size of 0 the loop does not end (`.ub` when the fuel is used up). -/
def processLoop (Ω : Faults) (junk : Nat) (parse : Bytes → I) (f : Nat → I → Res O)
    (ser : O → Bytes) (threads chunkSize : Nat) (output : Bytes) :
    Nat → Nat → Stream → Shard κ → Res Unit × Shard κ
  | 0, _, _, w => (.ub, w)
  | fuel + 1, base, s, w =>
    match readChunk junk parse chunkSize s with
    | (.ok (chunk, more), s) =>
      if threads = 0 then (.ub, w)
      else
        match writeResults Ω ser (threadResults f chunk base threads) (w.setPrefix output) with
        | (.ok _, w) =>
          if more then
            processLoop Ω junk parse f ser threads chunkSize output fuel (base + chunk.length) s w
          else (.ok (), w)
        | x => x
    | (.err e, _) => (.err e, w)
    | (.crash, _) => (.crash, w)
    | (.ub, _) => (.ub, w)

/-- process_record_file_util.h:46-126 `ProcessRecordFile`: the status returned and the file
system afterwards.  `maxBytes` is the shard size limit, 209715200 by default
(recordio.h:208-210).  The input is read as it was when it was opened. -/
def processRecordFile (Ω : Faults) (junk : Nat) (pick : Pick κ) (key : Bytes → κ) (maxBytes : Int)
    (parse : Bytes → I) (f : Nat → I → Res O) (ser : O → Bytes) (threads chunkSize : Nat)
    (input output : Bytes) (w : World) : Res Unit × World :=
  match openRead w.files input with
  | .ok s =>
    let wr := (Shard.init key maxBytes w).setPrefix output
    let (more, s) := s.hasMore
    let (st, wr) :=
      if more then
        processLoop Ω junk parse f ser threads chunkSize output (s.rest.length + 1) 0 s wr
      else (.ok (), wr)
    match st with
    | .ok _ =>
      match wr.close Ω with
      | (.ok shards, wr) =>
        match shardMerge Ω junk pick key shards output wr.out.world with
        | (.ok _, w) => deleteAll Ω shards w
        | x => x
      | (.err e, wr) => (.err e, wr.out.world)
      | (.crash, wr) => (.crash, wr.out.world)
      | (.ub, wr) => (.ub, wr.out.world)
    | .err e => (.err e, wr.out.world)
    | .crash => (.crash, wr.out.world)
    | .ub => (.ub, wr.out.world)
  | .err e => (.err e, w)
  | .crash => (.crash, w)
  | .ub => (.ub, w)

/-! ### JoinPath -/

/-- The separator `'/'`. -/
def slash : Byte := 47

/-- file.cc:52-69, the loop of `JoinPathImpl`: the bytes written so far, the number of bytes
left in the buffer, and `trailing_slash`.  Writing beyond the buffer is undefined behaviour. -/
def joinLoop : List Bytes → Bytes → Nat → Bool → Res Bytes
  | [], out, _, _ => .ok out
  | path :: paths, out, room, trailing =>
    match path with
    | [] => joinLoop paths out room trailing
    | c :: cs =>
      let path' := if c = slash then (if trailing then cs else c :: cs) else c :: cs
      let sep : Bytes := if c = slash then [] else if !trailing && out ≠ [] then [slash] else []
      let piece := sep ++ path'
      if piece.length ≤ room then
        let out' := out ++ piece
        joinLoop paths out' (room - piece.length) (decide (out'.getLast? = some slash))
      else .ub

/-- file.cc:42-72 `JoinPathImpl`; the buffer has one byte for each component but the first
plus all their bytes (lines 48-50). -/
def joinPath (paths : List Bytes) : Res Bytes :=
  match paths with
  | [] => .ok []
  | _ :: _ => joinLoop paths [] (paths.length - 1 + (paths.map List.length).sum) false

end PJC.Rec
