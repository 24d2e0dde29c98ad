import Verif.Model.RecordIO
/-
Model of the file object of /repo/private_join_and_compute/util/file_posix.cc with its whole
life: the stream pointer `f_`, the streams of the C library it refers to, reading and writing,
device errors, and the destructor.  `Out` and `Stream` (Model/RecordIO.lean) are the parts of it
that the record readers and writers need; `Props/PosixFile.lean` shows that they agree.
-/
namespace PJC.File
open PJC.Rec

/-- A stream of the C library (`FILE`): what it was opened for, the bytes not yet read, and the
end-of-file and error indicators. -/
structure FStream where
  name : Bytes
  write : Bool
  rest : Bytes
  eof : Bool
  bad : Bool
  deriving DecidableEq

/-- The pointer `f_` (file_posix.cc:149): null, a stream, or a stream that `fclose` has already
been called on (its use is undefined, C11 7.21.3p4). -/
inductive Ptr where
  | null
  | stream (s : FStream)
  | dangling
  deriving DecidableEq

/-- Which calls of the C library fail, and what is left of a file after a failed write or close
(`dev`), except that the outcome of `fclose` is given apart. -/
structure Device where
  dev : Faults
  closes : Nat → Bool

/-- The file object with the file system and the number of streams that are open. -/
structure PFile where
  f : Ptr
  world : World
  live : Nat

/-- file_posix.cc:35 constructor. -/
def PFile.new (w : World) : PFile := { f := .null, world := w, live := 0 }

/-- The modes used in the code ("r" and "w"; others are not modelled). -/
inductive Mode where
  | r
  | w
  deriving DecidableEq

/-- file_posix.cc:41-54 `Open`.  A file that does not exist is not opened for reading; opening
for writing empties it. -/
def PFile.open (D : Device) (name : Bytes) (mode : Mode) (p : PFile) : Res Unit × PFile :=
  match p.f with
  | .null =>
    if D.dev.ok p.world.tick then
      match mode with
      | .w => (.ok (), { f := .stream ⟨name, true, [], false, false⟩,
                         world := p.world.set name (some []), live := p.live + 1 })
      | .r =>
        match p.world.files name with
        | some c => (.ok (), { f := .stream ⟨name, false, c, false, false⟩,
                               world := p.world.next, live := p.live + 1 })
        | none => (.err .notFound, { p with world := p.world.next })
    else (.err .notFound, { p with world := p.world.next })
  | _ => (.err .internal, p)

/-- What a failed `fclose` leaves of the file. -/
def closedBadly (D : Device) (s : FStream) (w : World) : World :=
  if s.write then w.set s.name (some (((w.files s.name).getD []).take (D.dev.kept w.tick)))
  else w.next

/-- file_posix.cc:56-67 `Close`: a failed `fclose` leaves `f_` set, but the stream is gone. -/
def PFile.close (D : Device) (p : PFile) : Res Unit × PFile :=
  match p.f with
  | .null => (.err .internal, p)
  | .dangling => (.ub, p)
  | .stream s =>
    if D.closes p.world.tick then
      (.ok (), { f := .null, world := p.world.next, live := p.live - 1 })
    else
      (.err .internal,
        { f := .dangling, world := closedBadly D s p.world, live := p.live - 1 })

/-- file_posix.cc:69-92 `HasMore`.  Reading from a stream opened for writing fails. -/
def PFile.hasMore (D : Device) (p : PFile) : Res Bool × PFile :=
  match p.f with
  | .null => (.err .internal, p)
  | .dangling => (.ub, p)
  | .stream s =>
    if s.eof then (.ok false, p)
    else if s.bad then (.err .internal, p)
    else if s.write ∨ !D.dev.ok p.world.tick then
      (.err .internal, { p with f := .stream { s with bad := true }, world := p.world.next })
    else match s.rest with
      | [] => (.ok false, { p with f := .stream { s with eof := true }, world := p.world.next })
      | _ :: _ => (.ok true, { p with world := p.world.next })

/-- file_posix.cc:94-105 `Read`; a failing device may have consumed any part.  `fread` of nothing leaves the
stream as it is and returns 0, whatever the stream was opened for (C11 7.21.8.1p3). -/
def PFile.read (D : Device) (n : Nat) (p : PFile) : Res Bytes × PFile :=
  match p.f with
  | .null => (.err .internal, p)
  | .dangling => (.ub, p)
  | .stream s =>
    if n = 0 then (.ok [], p)
    else if s.write ∨ !D.dev.ok p.world.tick then
      (.err .internal, { p with
        f := .stream { s with bad := true, rest := s.rest.drop (D.dev.kept p.world.tick) }
        world := p.world.next })
    else if n ≤ s.rest.length then
      (.ok (s.rest.take n),
        { p with f := .stream { s with rest := s.rest.drop n }, world := p.world.next })
    else (.err .internal,
        { p with f := .stream { s with rest := [], eof := true }, world := p.world.next })

/-- file_posix.cc:107-132 `ReadLine`; the error indicator is never cleared, so after one error
every call fails. -/
def PFile.readLine (D : Device) (p : PFile) : Res Bytes × PFile :=
  match p.f with
  | .null => (.err .internal, p)
  | .dangling => (.ub, p)
  | .stream s =>
    if s.write ∨ !D.dev.ok p.world.tick then
      (.err .internal, { p with
        f := .stream { s with bad := true, rest := s.rest.drop (D.dev.kept p.world.tick) }
        world := p.world.next })
    else
      let (r, t) := Stream.readLine ⟨s.rest, s.eof⟩
      let p' := { p with f := .stream { s with rest := t.rest, eof := t.eof }, world := p.world.next }
      if s.bad then (.err .internal, p') else (r, p')

/-- file_posix.cc:134-145 `Write(content, length)`: the length is a separate argument, so bytes
behind the content are read if it is too large.  `fwrite` of nothing leaves the stream as it is and
returns 0 (C11 7.21.8.2p3). -/
def PFile.write (D : Device) (content : Bytes) (length : Nat) (p : PFile) : Res Unit × PFile :=
  match p.f with
  | .null => (.err .internal, p)
  | .dangling => (.ub, p)
  | .stream s =>
    if content.length < length then (.ub, p)
    else if length = 0 then (.ok (), p)
    else
      let c := (p.world.files s.name).getD []
      let bytes := content.take length
      if !s.write then
        (.err .internal, { p with f := .stream { s with bad := true }, world := p.world.next })
      else if D.dev.ok p.world.tick then
        (.ok (), { p with world := p.world.set s.name (some (c ++ bytes)) })
      else
        (.err .internal, { p with
          f := .stream { s with bad := true }
          world := p.world.set s.name (some ((c ++ bytes).take (D.dev.kept p.world.tick))) })

/-- file_posix.cc:37-39, the destructor: closes the file if `f_` is set, ignoring the status. -/
def PFile.destroy (D : Device) (p : PFile) : Res Unit × PFile :=
  match p.f with
  | .null => (.ok (), p)
  | _ =>
    match p.close D with
    | (.ub, p) => (.ub, p)
    | (.crash, p) => (.crash, p)
    | (_, p) => (.ok (), p)

/-- A call on the object. -/
inductive Call where
  | open (name : Bytes) (mode : Mode)
  | close
  | hasMore
  | read (n : Nat)
  | readLine
  | write (content : Bytes)

/-- The status of a call, without its value. -/
def statusOf {α : Type} : Res α → Res Unit
  | .ok _ => .ok ()
  | .err e => .err e
  | .crash => .crash
  | .ub => .ub

/-- One call; contents are written with their own length, as the callers do
(recordio.cc:325, 344-345). -/
def PFile.call (D : Device) (c : Call) (p : PFile) : Res Unit × PFile :=
  match c with
  | .open name mode => p.open D name mode
  | .close => p.close D
  | .hasMore => let (r, p) := p.hasMore D; (statusOf r, p)
  | .read n => let (r, p) := p.read D n; (statusOf r, p)
  | .readLine => let (r, p) := p.readLine D; (statusOf r, p)
  | .write content => p.write D content content.length

/-- A sequence of calls, whatever their results: the statuses and the object afterwards. -/
def PFile.run (D : Device) : List Call → PFile → List (Res Unit) × PFile
  | [], p => ([], p)
  | c :: cs, p =>
    let (r, p) := p.call D c
    let (rs, p) := PFile.run D cs p
    (r :: rs, p)

end PJC.File
