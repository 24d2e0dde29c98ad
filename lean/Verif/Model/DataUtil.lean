import Verif.Model.BigNum
import Verif.Model.Context
import Mathlib.Data.Nat.Digits.Defs
/-
Model of /repo/private_join_and_compute/data_util.cc: the CSV format of the dataset files,
their reader and writer, and the generator of random datasets.
-/
namespace PJC.Data

/-- `std::isspace` in the "C" locale: tab, newline, VT, FF, CR and space. -/
def isSpace (b : Byte) : Bool := decide (9 ≤ b.val ∧ b.val ≤ 13) || decide (b.val = 32)

/-- The bytes `"`, `,` and newline. -/
def dquote : Byte := 34
def comma : Byte := 44
def newline : Byte := 10

/-- data_util.cc:131-133 `EscapeForCsv`; `absl::StrReplaceAll` doubles every quote. -/
def escapeBody : Bytes → Bytes
  | [] => []
  | b :: r => if b = dquote then dquote :: dquote :: escapeBody r else b :: escapeBody r

/-- data_util.cc:131-133 `EscapeForCsv`. -/
def escapeForCsv (input : Bytes) : Bytes := dquote :: (escapeBody input ++ [dquote])

/-- data_util.cc:80-87, the loop over a quoted value, given the text after the opening
quote: the unescaped value and the text from where `line` stops. -/
def quotedValue : Bytes → Bytes × Bytes
  | [] => ([], [])
  | [b] => if b = dquote then ([], []) else ([b], [])
  | b :: c :: r =>
    if b = dquote then
      if c = dquote then
        let (v, rest) := quotedValue r
        (dquote :: v, rest)
      else ([], c :: r)
    else
      let (v, rest) := quotedValue (c :: r)
      (b :: v, rest)

/-- data_util.cc:97-100, the trailing whitespace of an unquoted value is dropped. -/
def trimRight (field : Bytes) : Bytes := (field.reverse.dropWhile isSpace).reverse

/-- data_util.cc:66-112 `SplitCSVLineWithDelimiter` with the delimiter `,`; the argument is
the text from `line` to `end_of_line`.  The C++ code writes the unescaped values into the
line buffer itself, never behind the position it reads from; the values are modelled as
strings of their own.  The fuel bounds the iterations; `splitCsvLine` supplies enough. -/
def splitLoop : Nat → Bytes → List Bytes
  | 0, _ => []
  | fuel + 1, text =>
    if text = [] then [] else
    -- line 74
    let text := text.dropWhile fun b => isSpace b && b != comma
    let (value, rest) :=
      match text with
      | [] => ([], [])
      | b :: r =>
        if b = dquote then
          -- lines 77-91
          let (v, rest) := quotedValue r
          (v, rest.dropWhile (· != comma))
        else
          -- lines 93-99
          (trimRight (text.takeWhile (· != comma)), text.dropWhile (· != comma))
    -- lines 101-108
    let more := if rest = [comma] then [[]] else []
    value :: (more ++ splitLoop fuel rest.tail)

/-- data_util.cc:58-64 and 114-126: the line is copied as a C string, so it ends at its first
NUL. -/
def cString (line : Bytes) : Bytes := line.takeWhile (· != 0)

/-- data_util.cc:137-141 `SplitCsvLine`. -/
def splitCsvLine (line : Bytes) : List Bytes :=
  splitLoop ((cString line).length + 1) (cString line)

/-! ### Files -/

/-- `std::getline` repeated until it fails, with the text `acc` of the current line: a line
is the text up to a newline; what follows the last newline is a line only if it is not
empty. -/
def getLinesFrom : Bytes → Bytes → List Bytes
  | acc, [] => if acc = [] then [] else [acc]
  | acc, b :: r =>
    if b = newline then acc :: getLinesFrom [] r else getLinesFrom (acc ++ [b]) r

/-- The lines of a file as the loops of data_util.cc:310 and 353 see them. -/
def getLines (content : Bytes) : List Bytes := getLinesFrom [] content

/-- `absl::StrCat` of an `int64_t`: decimal, without leading zeros. -/
def natToDec (n : Nat) : Bytes :=
  if n = 0 then [48] else ((Nat.digits 10 n).map fun d => (Fin.ofNat 256 (48 + d) : Byte)).reverse

/-- `absl::StrCat` of an `int64_t`. -/
def intToDec (v : Int) : Bytes :=
  if v < 0 then 45 :: natToDec v.natAbs else natToDec v.natAbs

/-- A decimal digit. -/
def digitOf (b : Byte) : Option Nat :=
  if 48 ≤ b.val ∧ b.val ≤ 57 then some (b.val - 48) else none

/-- The digits of a number, most significant first. -/
def parseDigits : Nat → Bytes → Option Nat
  | acc, [] => some acc
  | acc, b :: r =>
    match digitOf b with
    | none => none
    | some d => parseDigits (10 * acc + d) r

/-- `absl::SimpleAtoi` to `int64_t`: surrounding whitespace is stripped, then an optional
sign and at least one digit, nothing else; out-of-range values fail. -/
def simpleAtoi (s : Bytes) : Option Int :=
  let s := trimRight (s.dropWhile isSpace)
  match s with
  | [] => none
  | b :: r =>
    let (neg, ds) := if b = 45 then (true, r) else if b = 43 then (false, r) else (false, s)
    if ds = [] then none else
    match parseDigits 0 ds with
    | none => none
    | some n =>
      let v : Int := if neg then -(n : Int) else n
      if -(2 ^ 63) ≤ v ∧ v < 2 ^ 63 then some v else none

/-- What the file system does with a file opened for writing: whether it opens, and whether
everything is written and closed. -/
structure WriteIo where
  opens : Bool
  closes : Bool

/-- data_util.cc:230-256 `WriteServerDatasetToFile`: status and content of the file. -/
def writeServerDataset (io : WriteIo) (data : List Bytes) : Res Bytes :=
  if !io.opens then .err .invalidArgument else
  if !io.closes then .err .internal else
  .ok (data.flatMap fun a => escapeForCsv a ++ [newline])

/-- data_util.cc:258-294 `WriteClientDatasetToFile`. -/
def writeClientDataset (io : WriteIo) (ids : List Bytes) (vals : List Int) : Res Bytes :=
  if vals.length ≠ ids.length then .err .invalidArgument else
  if !io.opens then .err .invalidArgument else
  if !io.closes then .err .internal else
  .ok ((ids.zip vals).flatMap fun t => escapeForCsv t.1 ++ [comma] ++ intToDec t.2 ++ [newline])

/-- data_util.cc:307-322, the loop over the lines. -/
def readServerLines : List Bytes → Res (List Bytes)
  | [] => .ok []
  | line :: ls => do
    match splitCsvLine line with
    | [a] =>
      let rest ← readServerLines ls
      .ok (a :: rest)
    | _ => .err .invalidArgument

/-- data_util.cc:296-334 `ReadServerDatasetFromFile`; `none` is a file that cannot be opened.
Closing a file that was read does not fail. -/
def readServerDataset (file : Option Bytes) : Res (List Bytes) :=
  match file with
  | none => .err .invalidArgument
  | some content => readServerLines (getLines content)

/-- data_util.cc:350-376, the loop over the lines. -/
def readClientLines : List Bytes → Res (List Bytes × List BigNum)
  | [] => .ok ([], [])
  | line :: ls => do
    match splitCsvLine line with
    | [a, v] =>
      match simpleAtoi v with
      | none => .err .invalidArgument
      | some n =>
        if n < 0 then .err .invalidArgument else do
        let (ids, vals) ← readClientLines ls
        .ok (a :: ids, n :: vals)
    | _ => .err .invalidArgument

/-- data_util.cc:336-388 `ReadClientDatasetFromFile`. -/
def readClientDataset (file : Option Bytes) : Res (List Bytes × List BigNum) :=
  match file with
  | none => .err .invalidArgument
  | some content => readClientLines (getLines content)

/-! ### Random datasets -/

/-- data_util.cc:39-41. -/
def alphaNumeric : Bytes := str "1234567890qwertyuiopasdfghjklzxcvbnmQWERTYUIOPASDFGHJKLZXCVBNM"

/-- data_util.cc:45-53 `GetRandomAlphaNumericString`; `rand` are the successive values of
`rand()`. -/
def randomString (rand : Nat → Nat) : Nat → Bytes
  | 0 => []
  | n + 1 => randomString rand n ++ [alphaNumeric.getD (rand n % 62) 0]

/-- The draws of `GenerateRandomDatabases`: the values of `rand()` for the successive strings
of each of the three groups, the two shuffles and the random words of the successive
associated values. -/
structure DbRand where
  common : Nat → Nat → Nat
  server : Nat → Nat → Nat
  client : Nat → Nat → Nat
  shuffleServer : List Bytes → List Bytes
  shuffleClient : List Bytes → List Bytes
  value : Nat → Nat

/-- data_util.cc:196-217, the loop over the client's identifiers: values and sum
(`int64_t` arithmetic: an overflow is undefined; a converted value of 2^63 or more would wrap,
but the bound is below that). -/
def valuesLoop (rnd : DbRand) (max : Int) (server : List Bytes) :
    Nat → Int → List Bytes → Res (List Int × Int)
  | _, sum, [] => .ok ([], sum)
  | i, sum, a :: r => do
    let b ← Ctx.randLessThan (rnd.value i) max
    let n ← (BN.toIntValue b).value
    let v : Int := n
    let sum := if a ∈ server then sum + v else sum
    if sum ≥ 2 ^ 63 then .ub else do
    let (vals, s) ← valuesLoop rnd max server (i + 1) sum r
    .ok (v :: vals, s)

/-- data_util.cc:143-228 `GenerateRandomDatabases`; identifiers have 32 characters
(data_util.h:35). -/
def generateRandomDatabases (rnd : DbRand) (serverSize clientSize interSize maxValue : Int) :
    Res (List Bytes × (List Bytes × List Int) × Int) :=
  if interSize < 0 ∨ serverSize < 0 ∨ clientSize < 0 ∨ maxValue < 0 then
    .err .invalidArgument else
  if interSize > serverSize ∨ interSize > clientSize then .err .invalidArgument else
  if maxValue > 0 ∧ interSize > (2 ^ 63 - 1) / maxValue then .err .invalidArgument else do
  let common := (List.range interSize.toNat).map fun i => randomString (rnd.common i) 32
  let server := rnd.shuffleServer (common ++
    (List.range (serverSize - interSize).toNat).map fun i => randomString (rnd.server i) 32)
  let client := rnd.shuffleClient (common ++
    (List.range (clientSize - interSize).toNat).map fun i => randomString (rnd.client i) 32)
  let (vals, sum) ← valuesLoop rnd maxValue server 0 0 client
  .ok (server, (client, vals), sum)

end PJC.Data
