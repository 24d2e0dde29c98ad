import Verif.Model.Base
import Verif.Model.DataUtil
import Mathlib.Order.Basic
/-
Model of /repo/private_join_and_compute/util/recordio.cc and of the file object of
/repo/private_join_and_compute/util/file_posix.cc it is used with: the record format, readers
and writers, the merging reader, the sharding writer and the shard merger.
-/
namespace PJC.Rec

/-! ### Reading a file -/

/-- A file opened for reading (file_posix.cc `f_` with mode "r"): the bytes not yet read and
the end-of-file indicator.  The content is taken when the file is opened; a file that changes
while it is being read, and read errors of the device, are not modelled. -/
structure Stream where
  rest : Bytes
  eof : Bool
  deriving DecidableEq

/-- file_posix.cc:69-92 `HasMore` of an open file: a byte is read and put back; at the end of
the file the indicator is set. -/
def Stream.hasMore (s : Stream) : Bool × Stream :=
  if s.eof then (false, s)
  else match s.rest with
    | [] => (false, { s with eof := true })
    | _ :: _ => (true, s)

/-- file_posix.cc:94-105 `Read` of an open file. -/
def Stream.read (n : Nat) (s : Stream) : Res Bytes × Stream :=
  if n ≤ s.rest.length then (.ok (s.rest.take n), { s with rest := s.rest.drop n })
  else (.err .internal, { rest := [], eof := true })

/-- `LINE_MAX` (limits.h, used at file_posix.cc:112). -/
def lineMax : Nat := 2048

/-- `fgets(buffer_, LINE_MAX, f_)`: at most `LINE_MAX - 1` bytes, up to and including the
first newline. -/
def fgets : Nat → Bytes → Bytes × Bytes
  | 0, r => ([], r)
  | _, [] => ([], [])
  | n + 1, b :: r =>
    if b = 10 then ([b], r)
    else
      let (l, r') := fgets n r
      (b :: l, r')

/-- file_posix.cc:107-132 `ReadLine` of an open file.  `strlen` stops at a NUL byte. -/
def Stream.readLine (s : Stream) : Res Bytes × Stream :=
  match s.rest with
  | [] => (.err .internal, { s with eof := true })
  | _ :: _ =>
    let (buf, r) := fgets (lineMax - 1) s.rest
    -- the indicator is set if the end of the file was met before a newline
    let hitEnd := r = [] ∧ buf.length < lineMax - 1 ∧ buf.getLast? ≠ some 10
    let s' : Stream := { rest := r, eof := s.eof || decide hitEnd }
    let c := Data.cString buf
    if c.getLast? = some 10 then
      let l := c.dropLast
      if l.getLast? = some 13 then (.ok l.dropLast, s') else (.ok l, s')
    else (.ok c, s')

/-! ### Records -/

/-- protobuf `CodedOutputStream::WriteVarint32` (called at recordio.cc:318), at most five
bytes; the fuel is the number of bytes left. -/
def varintBytes : Nat → Nat → Bytes
  | 0, _ => []
  | fuel + 1, n =>
    if n < 128 then [Fin.ofNat 256 n]
    else Fin.ofNat 256 (n % 128 + 128) :: varintBytes fuel (n / 128)

/-- recordio.cc:308-326 `RecordWriterImpl::Write`, the bytes handed to the file.  The size is
passed to protobuf as an `int`, so records of 2^31 bytes and more are outside its contract. -/
def encodeRecord (r : Bytes) : Res Bytes :=
  if r.length < 2 ^ 31 then .ok (varintBytes 5 r.length ++ r) else .ub

/-- protobuf `CodedInputStream::ReadVarint32` on the bytes read (recordio.cc:80): seven bits
of each byte, truncated to 32 bits.  Its return value is ignored by the caller, so for an
incomplete varint the result is whatever protobuf leaves in the variable: `junk`. -/
def readVarint32 (junk : Nat) (bs : Bytes) : Nat :=
  match bs.getLast? with
  | none => junk
  | some b =>
    if b.val < 128 then (bs.foldr (fun (b : Byte) acc => b.val % 128 + 128 * acc) 0) % 2 ^ 32
    else junk

/-- recordio.cc:54-75, the loop of `ExtractVarint32`; `left` is `5 - current_byte`. -/
def extractLoop (junk : Nat) : Nat → Bytes → Bool → Stream → Res Nat × Stream
  | 0, acc, _, s => (.ok (readVarint32 junk acc), s)
  | left + 1, acc, more, s =>
    if !more then (.ok (readVarint32 junk acc), s)
    else
      match s.read 1 with
      | (.ok bs, s) =>
        let acc := acc ++ bs
        match bs with
        | b :: _ =>
          if b.val < 128 then (.ok (readVarint32 junk acc), s)
          else if left = 0 then (.err .invalidArgument, s)
          else
            let (more, s) := s.hasMore
            extractLoop junk left acc more s
        | [] => (.ub, s)
      | (.err e, s) => (.err e, s)
      | (.crash, s) => (.crash, s)
      | (.ub, s) => (.ub, s)

/-- recordio.cc:47-83 `ExtractVarint32`. -/
def extractVarint32 (junk : Nat) (s : Stream) : Res Nat × Stream :=
  let (more, s) := s.hasMore
  extractLoop junk 5 [] more s

/-- recordio.cc:104-122 `RecordReaderImpl::Read` on an open file. -/
def readRecord (junk : Nat) (s : Stream) : Res Bytes × Stream :=
  match extractVarint32 junk s with
  | (.ok n, s) => s.read n
  | (.err e, s) => (.err e, s)
  | (.crash, s) => (.crash, s)
  | (.ub, s) => (.ub, s)

/-- The loop "while HasMore: Read" (as in proto_util.h:86-91): the records read and the
status it ends with.  The fuel bounds the iterations; every `Read` takes at least one byte,
so the length of the file plus one suffices (running out gives `ub`). -/
def readAll (junk : Nat) : Nat → Stream → List Bytes × Res Unit
  | 0, _ => ([], .ub)
  | fuel + 1, s =>
    let (more, s) := s.hasMore
    if !more then ([], .ok ())
    else
      match readRecord junk s with
      | (.ok r, s) =>
        let (rs, st) := readAll junk fuel s
        (r :: rs, st)
      | (.err e, _) => ([], .err e)
      | (.crash, _) => ([], .crash)
      | (.ub, _) => ([], .ub)

/-- The same loop with the line reader (recordio.cc:129-154). -/
def readAllLines : Nat → Stream → List Bytes × Res Unit
  | 0, _ => ([], .ub)
  | fuel + 1, s =>
    let (more, s) := s.hasMore
    if !more then ([], .ok ())
    else
      match s.readLine with
      | (.ok r, s) =>
        let (rs, st) := readAllLines fuel s
        (r :: rs, st)
      | (.err e, _) => ([], .err e)
      | (.crash, _) => ([], .crash)
      | (.ub, _) => ([], .ub)

/-! ### Writing a file -/

/-- The file system: content by name, and a count of the calls that can fail. -/
structure World where
  files : Bytes → Option Bytes
  tick : Nat

/-- Which of the successive `fopen`, `fwrite`, `fclose`, `remove` calls succeed, and how many
bytes of a file are on it after a failed `fwrite` or `fclose`. -/
structure Faults where
  ok : Nat → Bool
  kept : Nat → Nat

/-- Every call succeeds. -/
def Faults.none : Faults := { ok := fun _ => true, kept := fun _ => 0 }

/-- The file system with one file changed. -/
def World.set (w : World) (name : Bytes) (c : Option Bytes) : World :=
  { files := fun n => if n = name then c else w.files n, tick := w.tick + 1 }

/-- The file system after a call that changed nothing. -/
def World.next (w : World) : World := { w with tick := w.tick + 1 }

/-- A `PosixFile` used for writing (file_posix.cc:33-151) together with the file system:
`f_` with the name of the open file. -/
structure Out where
  handle : Option Bytes
  world : World

/-- file_posix.cc:41-54 `Open` with mode "w". -/
def Out.open (Ω : Faults) (name : Bytes) (o : Out) : Res Unit × Out :=
  match o.handle with
  | some _ => (.err .internal, o)
  | none =>
    if Ω.ok o.world.tick then (.ok (), { handle := some name, world := o.world.set name (some []) })
    else (.err .notFound, { o with world := o.world.next })

/-- file_posix.cc:134-145 `Write`.  A write of nothing is taken to depend on the device like any other; the
C library does nothing then (`PFile.write`). -/
def Out.write (Ω : Faults) (bytes : Bytes) (o : Out) : Res Unit × Out :=
  match o.handle with
  | none => (.err .internal, o)
  | some name =>
    let c := (o.world.files name).getD []
    if Ω.ok o.world.tick then (.ok (), { o with world := o.world.set name (some (c ++ bytes)) })
    else (.err .internal,
      { o with world := o.world.set name (some ((c ++ bytes).take (Ω.kept o.world.tick))) })

/-- file_posix.cc:56-67 `Close`; a failed `fclose` leaves `f_` set. -/
def Out.close (Ω : Faults) (o : Out) : Res Unit × Out :=
  match o.handle with
  | none => (.err .internal, o)
  | some name =>
    let c := (o.world.files name).getD []
    if Ω.ok o.world.tick then (.ok (), { handle := none, world := o.world.next })
    else (.err .internal,
      { o with world := o.world.set name (some (c.take (Ω.kept o.world.tick))) })

/-- recordio.cc:308-326 `RecordWriterImpl::Write`. -/
def Out.writeRecord (Ω : Faults) (r : Bytes) (o : Out) : Res Unit × Out :=
  match encodeRecord r with
  | .ok bs => o.write Ω bs
  | .err e => (.err e, o)
  | .crash => (.crash, o)
  | .ub => (.ub, o)

/-- recordio.cc:343-346 `LineWriterImpl::Write`. -/
def Out.writeLine (Ω : Faults) (l : Bytes) (o : Out) : Res Unit × Out :=
  match o.write Ω l with
  | (.ok _, o) => o.write Ω [10]
  | r => r

/-- A sequence of `Write` calls that stops at the first error (proto_util.h:109-111). -/
def Out.writeAll (write : Bytes → Out → Res Unit × Out) : List Bytes → Out → Res Unit × Out
  | [], o => (.ok (), o)
  | r :: rs, o =>
    match write r o with
    | (.ok _, o) => o.writeAll write rs
    | x => x

/-- Opening, writing and closing (proto_util.h:104-113). -/
def writeFile (Ω : Faults) (write : Bytes → Out → Res Unit × Out) (name : Bytes)
    (rs : List Bytes) (o : Out) : Res Unit × Out :=
  match o.open Ω name with
  | (.ok _, o) =>
    match o.writeAll write rs with
    | (.ok _, o) => o.close Ω
    | x => x
  | x => x

/-! ### The merging reader -/

variable {κ : Type} [LinearOrder κ]

/-- recordio.cc:277-281 `HeapData`. -/
structure HeapData (κ : Type) where
  key : κ
  data : Bytes
  index : Nat
  deriving DecidableEq

/-- How `std::priority_queue` finds its top element and what remains after `pop`: some element
with the least key; `Heap.Ok` in the properties says which choices are allowed. -/
abbrev Pick (κ : Type) := List (HeapData κ) → Option (HeapData κ × List (HeapData κ))

/-- recordio.cc:157-295 `MultiSortedReaderImpl`: the readers (`none` for one whose file is not
open), the queue, and the key function given to `Open` (it is called only after `Open`). -/
structure Merge (κ : Type) where
  readers : List (Option Stream)
  heap : List (HeapData κ)
  key : Option (Bytes → κ)

/-- recordio.cc:159-166 constructor. -/
def Merge.init : Merge κ := { readers := [], heap := [], key := none }

/-- The content of a file that can be opened for reading (file_posix.cc:41-54 with mode "r"). -/
def openRead (files : Bytes → Option Bytes) (name : Bytes) : Res Stream :=
  match files name with
  | some c => .ok { rest := c, eof := false }
  | none => .err .notFound

/-- recordio.cc:184-196, the loop closing the readers already opened after reader `i` failed;
`readers` has `i + 1` elements.  Closing a file opened for reading is taken to succeed. -/
def Merge.undo : Nat → List (Option Stream) → List (Option Stream)
  | 0, rs => rs
  | j + 1, rs => Merge.undo j ((rs.set j none).dropLast)

/-- recordio.cc:181-198, the loop of `Open`. -/
def Merge.openLoop (files : Bytes → Option Bytes) :
    List Bytes → List (Option Stream) → Res Unit × List (Option Stream)
  | [], rs => (.ok (), rs)
  | f :: fs, rs =>
    match openRead files f with
    | .ok s => Merge.openLoop files fs (rs ++ [some s])
    | .err e => (.err e, Merge.undo rs.length (rs ++ [none]))
    | .crash => (.crash, rs)
    | .ub => (.ub, rs)

/-- recordio.cc:175-199 `Open` with a key function. -/
def Merge.open (files : Bytes → Option Bytes) (names : List Bytes) (key : Bytes → κ)
    (m : Merge κ) : Res Unit × Merge κ :=
  if m.readers ≠ [] then (.err .internal, m)
  else
    let (st, rs) := Merge.openLoop files names []
    (st, { m with readers := rs, key := some key })

/-- recordio.cc:201-220 `Close`: stops at the first reader whose file is not open. -/
def Merge.close (m : Merge κ) : Res Unit × Merge κ :=
  let rec go : List (Option Stream) → Bool × List (Option Stream)
    | [] => (true, [])
    | some _ :: rs =>
      let (ok, rs') := go rs
      (ok, none :: rs')
    | none :: rs => (false, none :: rs)
  let (ok, rs) := go m.readers
  if ok then (.ok (), { m with readers := [], heap := [] })
  else (.err .internal, { m with readers := rs })

/-- recordio.cc:226-241, the loop over the readers in `HasMore`: whether one has more, whether
one failed, and the readers afterwards. -/
def Merge.hasMoreLoop : List (Option Stream) → Bool → Res Bool × List (Option Stream)
  | [], failed => (if failed then .err .internal else .ok false, [])
  | none :: rs, _ =>
    let (r, rs') := Merge.hasMoreLoop rs true
    (r, none :: rs')
  | some s :: rs, failed =>
    match s.hasMore with
    | (true, s) => (.ok true, some s :: rs)
    | (false, s) =>
      let (r, rs') := Merge.hasMoreLoop rs failed
      (r, some s :: rs')

/-- recordio.cc:222-242 `HasMore`. -/
def Merge.hasMore (m : Merge κ) : Res Bool × Merge κ :=
  if m.heap ≠ [] then (.ok true, m)
  else
    let (r, rs) := Merge.hasMoreLoop m.readers false
    (r, { m with readers := rs })

/-- recordio.cc:260-275 `ReadHeapDataFromReader`. -/
def Merge.fetch (junk : Nat) (i : Nat) (m : Merge κ) : Res Unit × Merge κ :=
  match m.readers[i]? with
  | none => (.ub, m)
  | some none => (.err .internal, m)
  | some (some s) =>
    match s.hasMore with
    | (false, s) => (.ok (), { m with readers := m.readers.set i (some s) })
    | (true, s) =>
      match readRecord junk s with
      | (.ok d, s) =>
        match m.key with
        | none => (.ub, m)
        | some key =>
          (.ok (), { m with
            readers := m.readers.set i (some s)
            heap := { key := key d, data := d, index := i } :: m.heap })
      | (.err e, s) => (.err e, { m with readers := m.readers.set i (some s) })
      | (.crash, s) => (.crash, { m with readers := m.readers.set i (some s) })
      | (.ub, s) => (.ub, { m with readers := m.readers.set i (some s) })

/-- recordio.cc:247-251, filling the empty queue from readers `i`, `i+1`, ... -/
def Merge.fill (junk : Nat) : Nat → Nat → Merge κ → Res Unit × Merge κ
  | 0, _, m => (.ok (), m)
  | n + 1, i, m =>
    match m.fetch junk i with
    | (.ok _, m) => Merge.fill junk n (i + 1) m
    | x => x

/-- recordio.cc:246-257 `Read(data, index)`: `top()` of an empty queue is undefined. -/
def Merge.read (junk : Nat) (pick : Pick κ) (m : Merge κ) : Res (Bytes × Nat) × Merge κ :=
  let filled := if m.heap = [] then Merge.fill junk m.readers.length 0 m else (.ok (), m)
  match filled with
  | (.ok _, m) =>
    match pick m.heap with
    | none => (.ub, m)
    | some (top, heap) =>
      match Merge.fetch junk top.index { m with heap := heap } with
      | (.ok _, m) => (.ok (top.data, top.index), m)
      | (.err e, m) => (.err e, m)
      | (.crash, m) => (.crash, m)
      | (.ub, m) => (.ub, m)
  | (.err e, m) => (.err e, m)
  | (.crash, m) => (.crash, m)
  | (.ub, m) => (.ub, m)

/-- The loop "while HasMore: Read" on the merging reader; fuel as for `readAll`. -/
def Merge.readAll (junk : Nat) (pick : Pick κ) :
    Nat → Merge κ → List (Bytes × Nat) × Res Unit × Merge κ
  | 0, m => ([], .ub, m)
  | fuel + 1, m =>
    match m.hasMore with
    | (.ok false, m) => ([], .ok (), m)
    | (.ok true, m) =>
      match m.read junk pick with
      | (.ok d, m) =>
        let (ds, st, m) := Merge.readAll junk pick fuel m
        (d :: ds, st, m)
      | (.err e, m) => ([], .err e, m)
      | (.crash, m) => ([], .crash, m)
      | (.ub, m) => ([], .ub, m)
    | (.err e, m) => ([], .err e, m)
    | (.crash, m) => ([], .crash, m)
    | (.ub, m) => ([], .ub, m)

/-! ### The sharding writer -/

/-- recordio.cc:408-410 `GetFilename`. -/
def shardName (pre : Bytes) (idx : Nat) : Bytes := pre ++ Data.natToDec idx

/-- recordio.cc:412-539 `ShardingWriterImpl`, its fields and its record writer.  Every method
holds the mutex, so calls from several threads take effect one after the other. -/
structure Shard (κ : Type) where
  key : Bytes → κ
  maxBytes : Int
  pre : Bytes
  cache : List Bytes
  bytes : Int
  idx : Nat
  name : Bytes
  shards : List Bytes
  healthy : Bool
  isOpen : Bool
  out : Out

/-- recordio.cc:419-433 constructor. -/
def Shard.init (key : Bytes → κ) (maxBytes : Int) (w : World) : Shard κ where
  key := key
  maxBytes := maxBytes
  pre := []
  cache := []
  bytes := 0
  idx := 0
  name := []
  shards := []
  healthy := true
  isOpen := false
  out := { handle := none, world := w }

/-- recordio.cc:434-439 `SetShardPrefix`. -/
def Shard.setPrefix (pre : Bytes) (s : Shard κ) : Shard κ :=
  { s with isOpen := true, pre := pre, name := shardName pre s.idx }

/-- Conversion to `int32_t` (recordio.cc:472: `bytes_written_ += size`). -/
def toInt32 (x : Int) : Int := (x + 2 ^ 31) % 2 ^ 32 - 2 ^ 31

/-- `std::list::sort` with the key order (recordio.cc:481-483); it is stable. -/
def Shard.sorted (s : Shard κ) : List Bytes :=
  s.cache.mergeSort fun a b => decide (s.key a ≤ s.key b)

/-- recordio.cc:490-498, the loop writing the records. -/
def Shard.writeLoop (Ω : Faults) : List Bytes → Out → Res Bool × Out
  | [], o => (.ok true, o)
  | r :: rs, o =>
    match o.writeRecord Ω r with
    | (.ok _, o) => Shard.writeLoop Ω rs o
    | (.err _, o) => (.ok false, o)
    | (.crash, o) => (.crash, o)
    | (.ub, o) => (.ub, o)

/-- recordio.cc:478-515 `WriteCacheToFile`. -/
def Shard.flush (Ω : Faults) (s : Shard κ) : Res Unit × Shard κ :=
  if !s.healthy then (.err .internal, s)
  else if s.cache = [] then (.ok (), s)
  else
    match s.out.open Ω s.name with
    | (.ok _, o) =>
      match Shard.writeLoop Ω s.sorted o with
      | (.ok written, o) =>
        let (closed, o) := o.close Ω
        let st : Res Unit := if written then
            (match closed with | .ok _ => .ok () | _ => .err .internal)
          else .err .internal
        (st, { s with
          cache := []
          bytes := 0
          idx := s.idx + 1
          name := shardName s.pre (s.idx + 1)
          shards := s.shards ++ [s.name]
          healthy := written
          out := o })
      | (.err e, o) => (.err e, { s with out := o })
      | (.crash, o) => (.crash, { s with out := o })
      | (.ub, o) => (.ub, { s with out := o })
    | (_, o) => (.err .internal, { s with healthy := false, cache := s.sorted, out := o })

/-- recordio.cc:461-475 `Write`. -/
def Shard.write (Ω : Faults) (r : Bytes) (s : Shard κ) : Res Unit × Shard κ :=
  if !s.isOpen then (.err .internal, s)
  else if !s.healthy then (.err .internal, s)
  else
    let (st, s) := if s.bytes > s.maxBytes then s.flush Ω else (.ok (), s)
    match st with
    | .ok _ => (.ok (), { s with bytes := toInt32 (s.bytes + r.length), cache := s.cache ++ [r] })
    | .err e => (.err e, s)
    | .crash => (.crash, s)
    | .ub => (.ub, s)

/-- recordio.cc:517-525 `TryClose`. -/
def Shard.tryClose (Ω : Faults) (s : Shard κ) : Res (List Bytes) × Shard κ :=
  if !s.isOpen then (.err .internal, s)
  else
    match s.flush Ω with
    | (.ok _, s) => (.ok s.shards, s)
    | (.err e, s) => (.err e, s)
    | (.crash, s) => (.crash, s)
    | (.ub, s) => (.ub, s)

/-- recordio.cc:441-457 `Close`. -/
def Shard.close (Ω : Faults) (s : Shard κ) : Res (List Bytes) × Shard κ :=
  let (r, s) := s.tryClose Ω
  (r, { s with
    pre := [], name := [], healthy := true, cache := [], bytes := 0, shards := [], idx := 0
    isOpen := false })

/-! ### The shard merger -/

/-- recordio.cc:587-590, the loop of `Merge`: `HasMore().value()` aborts on an error. -/
def mergeLoop (Ω : Faults) (junk : Nat) (pick : Pick κ) :
    Nat → Merge κ → Out → Res Unit × Merge κ × Out
  | 0, m, o => (.ub, m, o)
  | fuel + 1, m, o =>
    match m.hasMore with
    | (.ok false, m) => (.ok (), m, o)
    | (.ok true, m) =>
      match m.read junk pick with
      | (.ok d, m) =>
        match o.writeRecord Ω d.1 with
        | (.ok _, o) => mergeLoop Ω junk pick fuel m o
        | (st, o) => (st, m, o)
      | (.err e, m) => (.err e, m, o)
      | (.crash, m) => (.crash, m, o)
      | (.ub, m) => (.ub, m, o)
    | (.err _, m) => (.crash, m, o)
    | (.crash, m) => (.crash, m, o)
    | (.ub, m) => (.ub, m, o)

/-- Bytes in the files of the readers and records in the queue: enough iterations for the
loops over a merging reader. -/
def Merge.size (m : Merge κ) : Nat :=
  m.heap.length + (m.readers.map fun r => match r with | some s => s.rest.length | none => 0).sum

/-- recordio.cc:566-597 `ShardMerger::Merge` of a merger with a fresh reader and writer
(recordio.h:245-248); on an error the objects are dropped, as in process_record_file_util.h. -/
def shardMerge (Ω : Faults) (junk : Nat) (pick : Pick κ) (key : Bytes → κ) (files : List Bytes)
    (output : Bytes) (w : World) : Res Unit × World :=
  let o : Out := { handle := none, world := w }
  -- lines 569-573
  let (st, o) : Res Unit × Out :=
    if files = [] then
      (match o.open Ω output with
        | (.ok _, o) => o.close Ω
        | x => x)
    else (.ok (), o)
  match st with
  | .ok _ =>
    match Merge.open o.world.files files key Merge.init with
    | (.ok _, m) =>
      match o.open Ω output with
      | (.ok _, o) =>
        match mergeLoop Ω junk pick (m.size + 1) m o with
        | (.ok _, m, o) =>
          match o.close Ω with
          | (.ok _, o) => ((m.close).1, o.world)
          | (st, o) => (st, o.world)
        | (st, _, o) => (st, o.world)
      | (st, o) => (st, o.world)
    | (st, _) => (st, o.world)
  | st => (st, o.world)

/-- file_posix.cc:165-171 `DeleteFile`. -/
def deleteFile (Ω : Faults) (name : Bytes) (w : World) : Res Unit × World :=
  if (w.files name).isSome && Ω.ok w.tick then (.ok (), w.set name none)
  else (.err .internal, w.next)

/-- recordio.cc:598-605 `ShardMerger::Delete`. -/
def deleteAll (Ω : Faults) : List Bytes → World → Res Unit × World
  | [], w => (.ok (), w)
  | f :: fs, w =>
    match deleteFile Ω f w with
    | (.ok _, w) => deleteAll Ω fs w
    | x => x

end PJC.Rec
