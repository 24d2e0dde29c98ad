import Verif.Model.PosixFile
import Verif.Model.ProcessFile
import Mathlib.Data.List.SplitOn
/-
Model of the functions of /repo/private_join_and_compute/util/file_posix.cc that take names,
and of the line writer of recordio.cc, with their arguments as what they are: views
(`absl::string_view`) into some buffer, whose `data()` is handed to functions of the C library
that expect a terminating NUL.  Then the functions on directories.
-/
namespace PJC.File
open PJC.Rec

/-- An `absl::string_view`: a pointer into an allocation (all its bytes, and the offset the pointer
points to) and a length.  Null pointers are not modelled. -/
structure View where
  buf : Bytes
  off : Nat
  len : Nat
  deriving DecidableEq

/-- The allocation from the pointer on. -/
def View.tail (v : View) : Bytes := v.buf.drop v.off

/-- The bytes the view stands for, as all its own methods and `std::string(view)` see it. -/
def View.bytes (v : View) : Bytes := v.tail.take v.len

/-- The view of a whole `std::string`: its buffer ends with a NUL. -/
def View.ofString (s : Bytes) : View := { buf := s ++ [0], off := 0, len := s.length }

/-- What a function of the C library makes of `data()`: the bytes up to the first NUL; without a
NUL in the allocation it reads beyond the end. -/
def View.cString (v : View) : Res Bytes :=
  if 0 ∈ v.tail then .ok (v.tail.takeWhile (· != 0)) else .ub

/-- file_posix.cc:41-54 `Open`: `fopen(file_name.data(), ...)`. -/
def PFile.openView (D : Device) (name : View) (mode : Mode) (p : PFile) : Res Unit × PFile :=
  match p.f with
  | .null =>
    match name.cString with
    | .ok n => p.open D n mode
    | .err e => (.err e, p)
    | .crash => (.crash, p)
    | .ub => (.ub, p)
  | _ => (.err .internal, p)

/-- recordio.cc:343-346 `LineWriterImpl::Write`: the first argument of
`out_->Write(line.data(), line.size())` is a string view built from a pointer alone, which looks
for the terminating NUL (`strlen`). -/
def PFile.writeLineView (D : Device) (line : View) (p : PFile) : Res Unit × PFile :=
  match line.cString with
  | .ok _ =>
    match p.write D line.tail line.len with
    | (.ok _, p) => p.write D [Data.newline] 1
    | x => x
  | .err e => (.err e, p)
  | .crash => (.crash, p)
  | .ub => (.ub, p)

/-- recordio.cc:308-326 `RecordWriterImpl::Write`: the bytes are copied first, with their length,
into a string of their own. -/
def PFile.writeRecordView (D : Device) (record : View) (p : PFile) : Res Unit × PFile :=
  match encodeRecord record.bytes with
  | .ok out => p.write D out out.length
  | .err e => (.err e, p)
  | .crash => (.crash, p)
  | .ub => (.ub, p)

/-- file_posix.cc:165-171 `DeleteFile`: `remove(file_name.data())`. -/
def deleteView (Ω : Faults) (name : View) (w : World) : Res Unit × World :=
  match name.cString with
  | .ok n => deleteFile Ω n w
  | .err e => (.err e, w)
  | .crash => (.crash, w)
  | .ub => (.ub, w)

/-- `rename` of the C library on files: a failed call changes nothing; the content moves, and
replaces what was there (POSIX). -/
def renameC (Ω : Faults) (a b : Bytes) (w : World) : Res Unit × World :=
  match w.files a with
  | some c =>
    if Ω.ok w.tick then
      (.ok (), { files := fun n => if n = b then some c else if n = a then none else w.files n,
                 tick := w.tick + 1 })
    else (.err .internal, w.next)
  | none => (.err .internal, w.next)

/-- file_posix.cc:157-163 `RenameFile`. -/
def renameView (Ω : Faults) (a b : View) (w : World) : Res Unit × World :=
  match a.cString, b.cString with
  | .ok a, .ok b => renameC Ω a b w
  | _, _ => (.ub, w)

/-- file_posix.cc:176-182 `FileExists`: the name is copied into a `std::string`; the system still
sees it up to its first NUL. -/
def fileExists (name : View) (w : World) : Res Unit :=
  if (w.files (name.bytes.takeWhile (· != 0))).isSome then .ok () else .err .notFound

/-! ### Directories -/

/-- A node of the tree of files. -/
inductive Node where
  | file (content : Bytes)
  | dir
  deriving DecidableEq

/-- The tree of files: nodes by the components of their path (none for the root).  Links, and the
components `.` and `..`, are not modelled. -/
abbrev Tree := List Bytes → Option Node

/-- The components of a path. -/
def components (path : Bytes) : List Bytes :=
  (path.splitOn slash).filter fun c => c ≠ []

/-- The tree with one node more. -/
def Tree.set (t : Tree) (path : List Bytes) (n : Node) : Tree :=
  fun p => if p = path then some n else t p

/-- `std::filesystem::create_directories` (called at file_posix.cc:190): from the top, every
component that is missing is made; whether the last one was; `ok` tells which of the successive
`mkdir` calls succeed.  What has been made stays after an error. -/
def createDirs (ok : Nat → Bool) : List Bytes → List Bytes → Bool → Nat → Tree → Res Bool × Tree
  | _, [], made, _, t => (.ok made, t)
  | above, c :: cs, _, tick, t =>
    match t (above ++ [c]) with
    | some .dir => createDirs ok (above ++ [c]) cs false tick t
    | some (.file _) => (.err .internal, t)
    | none =>
      if ok tick then
        createDirs ok (above ++ [c]) cs true (tick + 1) (t.set (above ++ [c]) .dir)
      else (.err .internal, t)

/-- file_posix.cc:187-202 `RecursivelyCreateDir`. -/
def recursivelyCreateDir (ok : Nat → Bool) (path : Bytes) (t : Tree) : Res Unit × Tree :=
  match createDirs ok [] (components path) false 0 t with
  | (.ok true, t) => (.ok (), t)
  | (.ok false, t) => (.err .alreadyExists, t)
  | (.err _, t) => (.err .internal, t)
  | (.crash, t) => (.crash, t)
  | (.ub, t) => (.ub, t)

/-- `std::filesystem::remove_all` (called at file_posix.cc:208): the node and all below it; when a
call fails, those for which `left` holds are still there. -/
def removeAll (fails : Bool) (left : List Bytes → Bool) (path : List Bytes) (t : Tree) : Tree :=
  fun p => if path <+: p then (if fails && left p then t p else none) else t p

/-- file_posix.cc:204-214 `RecursivelyDeleteDir`. -/
def recursivelyDeleteDir (fails : Bool) (left : List Bytes → Bool) (path : Bytes) (t : Tree) :
    Res Unit × Tree :=
  (if fails then .err .internal else .ok (), removeAll fails left (components path) t)

/-- file_posix.cc:176-182 `FileExists` on the tree. -/
def existsInTree (path : Bytes) (t : Tree) : Res Unit :=
  if (t (components path)).isSome then .ok () else .err .notFound

end PJC.File
