import Verif.Model.DataUtil
/-
Model of /repo/private_join_and_compute/data_util.cc:58-126 at the level of memory: the line is copied
into a buffer in which the columns are unescaped in place.  `Model/DataUtil.lean` has the same functions
on strings.
-/
namespace PJC.CsvBuffer
open PJC PJC.Data

/-- The content of a buffer. -/
abbrev Mem : Type := Nat → Byte

/-- Reading the byte at `i` of a buffer of `size` bytes. -/
def read (size : Nat) (mem : Mem) (i : Nat) : Res Byte := if i < size then .ok (mem i) else .ub

/-- Writing the byte at `i`. -/
def write (size : Nat) (mem : Mem) (i : Nat) (b : Byte) : Res Mem :=
  if i < size then .ok (Function.update mem i b) else .ub

/-- `std::isspace` of a `char`: if `char` is signed, the bytes from 128 to 254 are the numbers -128 to -2,
which are neither representable as `unsigned char` nor `EOF`; for these the behaviour is undefined.
Byte 255 is -1, which is `EOF` in all C libraries, and no white space. -/
def isspaceChar (signed : Bool) (b : Byte) : Res Bool :=
  if signed && decide (128 ≤ b.val ∧ b.val < 255) then .ub else .ok (isSpace b)

section
variable (signed : Bool) (size : Nat)

/-- `strlen`, from `i`: the index of the first NUL. -/
def strlen (mem : Mem) : Nat → Nat → Res Nat
  | 0, _ => .ub
  | f + 1, i => do
    let b ← read size mem i
    if b = 0 then .ok i else strlen mem f (i + 1)

/-- `strchr(line, ',')`. -/
def strchr (mem : Mem) : Nat → Nat → Res (Option Nat)
  | 0, _ => .ub
  | f + 1, i => do
    let b ← read size mem i
    if b = comma then .ok (some i) else if b = 0 then .ok none else strchr mem f (i + 1)

/-- data_util.cc:74. -/
def skipSpace (mem : Mem) : Nat → Nat → Res Nat
  | 0, _ => .ub
  | f + 1, line => do
    let b ← read size mem line
    let sp ← isspaceChar signed b
    if sp && b != comma then skipSpace mem f (line + 1) else .ok line

/-- data_util.cc:79-86: buffer, `line` and `end`. -/
def unquote : Nat → Mem → Nat → Nat → Res (Mem × Nat × Nat)
  | 0, _, _, _ => .ub
  | f + 1, mem, line, fin => do
    let b ← read size mem line
    if b = 0 then .ok (mem, line, fin)
    else if b = dquote then do
      let c ← read size mem (line + 1)
      if c ≠ dquote then .ok (mem, line + 1, fin)
      else do
        let mem ← write size mem fin c
        unquote f mem (line + 2) (fin + 1)
    else do
      let mem ← write size mem fin b
      unquote f mem (line + 1) (fin + 1)

/-- data_util.cc:96-98: `end`. -/
def trimEnd (mem : Mem) (start : Nat) : Nat → Res Nat
  | 0 => .ok 0
  | e + 1 =>
    if e + 1 > start then do
      let b ← read size mem e
      let sp ← isspaceChar signed b
      if !sp || b == comma then .ok (e + 1) else trimEnd mem start e
    else .ok (e + 1)

/-- data_util.cc:72-111, the loop: the buffer and the columns (as indices).  A pointer past the end of the
buffer but one may not be formed.  The `assert` is kept. -/
def splitLoopC (eol : Nat) : Nat → Mem → Nat → List Nat → Res (Mem × List Nat)
  | 0, _, _, _ => .ub
  | f + 1, mem, line, cols =>
    if line < eol then do
      let line ← skipSpace signed size mem (size + 1) line
      let b ← read size mem line
      let (mem, start, line, fin) ←
        if b = dquote then do
          let (mem, l, e) ← unquote size (size + 1) mem (line + 1) (line + 1)
          let l ← strchr size mem (size + 1) l
          Res.ok (mem, line + 1, l.getD eol, e)
        else do
          let l ← strchr size mem (size + 1) line
          let e ← trimEnd signed size mem line (l.getD eol)
          Res.ok (mem, line, l.getD eol, e)
      let c ← read size mem line
      let more := decide (c = comma) && decide (line + 1 = eol)
      let mem ← write size mem fin 0
      let d ← read size mem line
      if ¬ (d = 0 ∨ d = comma) then .crash
      else if line + 1 > size then .ub
      else splitLoopC eol f mem (line + 1) (cols ++ start :: if more then [fin] else [])
    else .ok (mem, cols)

/-- data_util.cc:123, `std::string` from a C string. -/
def readString (mem : Mem) : Nat → Nat → Res Bytes
  | 0, _ => .ub
  | f + 1, i => do
    let b ← read size mem i
    if b = 0 then .ok [] else do
      let r ← readString mem f (i + 1)
      .ok (b :: r)

/-- The loop of data_util.cc:122-124. -/
def readStrings (mem : Mem) : List Nat → Res (List Bytes)
  | [] => .ok []
  | i :: is => do
    let s ← readString size mem (size + 1) i
    let r ← readStrings mem is
    .ok (s :: r)

end

/-- data_util.cc:114-126 with 58-64 and 66-112, and 137-141 `SplitCsvLine`: `strncpy` copies up to the
first NUL and fills the rest of the buffer with NULs.  `signed` says whether `char` is a signed type. -/
def splitCsvLineC (signed : Bool) (line : Bytes) : Res (List Bytes) := do
  let size := line.length + 1
  let mem : Mem := fun i => (cString line).getD i 0
  let eol ← strlen size mem (size + 1) 0
  let r ← splitLoopC signed size eol (size + 1) mem 0 []
  readStrings size r.1 r.2

end PJC.CsvBuffer
