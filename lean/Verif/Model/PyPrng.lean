import Verif.Model.PyCipher
/-
Model of the class `PRNG` of /repo/private_join_and_compute/py/crypto_util/ssl_util.py:569-636.  A
method returns its outcome with the object as it is left behind, also after an exception.
-/
namespace PJC.Py

/-- ssl_util.py:576-599, the attributes. -/
structure Prng where
  seed : Bytes
  curPad : Nat
  curBytes : Bytes
  curByteLen : Nat
  limit : Nat
  deriving DecidableEq, Repr

/-- ssl_util.py:576-599 `__init__`. -/
def Prng.init (seed : Arg) (counterByteLen : Nat := 4) : Out Prng := do
  let s ← match seed with
    | .bytes bs => Out.ok bs
    | .int n => longToBytes n
  if s.length < 32 then .raises .valueError
  else .ok { seed := s, curPad := 0, curBytes := [], curByteLen := counterByteLen,
             limit := 1 <<< (counterByteLen * 8) }

/-- ssl_util.py:611-615 `_PaddedCountBytes`; a negative number of zero bytes is none. -/
def Prng.paddedCountBytes (s : Prng) : Out Bytes := do
  let counter ← longToBytes s.curPad
  return List.replicate (s.curByteLen - counter.length) 0 ++ counter

/-- ssl_util.py:601-609 `_GetMore`. -/
def Prng.getMore (H : Hashes) (s : Prng) : Out Unit × Prng :=
  if ¬ s.curPad < s.limit then (.raises .assertionError, s)
  else
    match s.paddedCountBytes with
    | .raises e => (.raises e, s)
    | .ok counter =>
      let out := H.sha512 (counter ++ s.seed)
      (.ok (), { s with curPad := s.curPad + 1, curBytes := s.curBytes ++ out })

/-- ssl_util.py:621-622, the `while` loop.  It ends at the latest when the limit is reached:
`fuel` is the number of blocks that are left. -/
def Prng.fill (H : Hashes) (byteLen : Nat) : Nat → Prng → Out Unit × Prng
  | 0, s => if s.curBytes.length < byteLen then s.getMore H else (.ok (), s)
  | fuel + 1, s =>
    if s.curBytes.length < byteLen then
      match s.getMore H with
      | (.ok (), s') => Prng.fill H byteLen fuel s'
      | (.raises e, s') => (.raises e, s')
    else (.ok (), s)

/-- ssl_util.py:617-628 `_GetNBitRand`. -/
def Prng.getNBitRand (H : Hashes) (s : Prng) (n : Nat) : Out Int × Prng :=
  let byteLen := (n + 7) >>> 3
  let excess := (8 - n % 8) % 8
  match s.fill H byteLen (s.limit - s.curPad) with
  | (.raises e, s') => (.raises e, s')
  | (.ok (), s') =>
    let rand := s'.curBytes.take byteLen
    (.ok (((bytesToLong rand).toNat >>> excess : Nat) : Int),
      { s' with curBytes := s'.curBytes.drop byteLen })

/-- ssl_util.py:633-635, the `while` loop; `none` when it has not ended within `fuel` rounds. -/
def Prng.getRandLoop (H : Hashes) (upper : Int) (n : Nat) : Nat → Prng → Option (Out Int × Prng)
  | 0, _ => none
  | fuel + 1, s =>
    match s.getNBitRand H n with
    | (.raises e, s') => some (.raises e, s')
    | (.ok r, s') => if upper ≤ r then Prng.getRandLoop H upper n fuel s' else some (.ok r, s')

/-- ssl_util.py:630-636 `GetRand`; `int.bit_length` is that of the absolute value. -/
def Prng.getRand (H : Hashes) (fuel : Nat) (s : Prng) (upper : Int) : Option (Out Int × Prng) :=
  s.getRandLoop H upper (BN.bitLength (upper - 1)) fuel

end PJC.Py
