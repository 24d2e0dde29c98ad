import Verif.Model.BigNum
/-
Model of `BigNum` objects as they are in memory: /repo/private_join_and_compute/crypto/big_num.{h,cc},
with context.cc:51-61 `CreateBigNum` and ec_group.cc:292-303 `RecoverXFromPaddedPoint`, which takes
apart the result of ec_point.cc:74-91 `GetAffineCoordinates`.  An object holds a pointer to a number
of the library, which it owns (`std::unique_ptr`); null after its number was moved away.  The rest
of the model takes a `BigNum` for its value; here it is shown that this is right.  The pointer to the
`BN_CTX` is left out.
-/
namespace PJC.Obj

/-- The numbers of the library: the value at an address (`none` if it is not allocated), the first
address never used, and the number of allocations tried so far. -/
structure Mem where
  cell : Nat → Option Int
  next : Nat
  tick : Nat

/-- A function with one value replaced. -/
def set {α : Type} (f : Nat → α) (a : Nat) (v : α) : Nat → α := fun b => if b = a then v else f b

/-- What a piece of code does with the memory. -/
def H (α : Type) := Mem → Res α × Mem

instance : Monad H where
  pure a := fun m => (.ok a, m)
  bind x f := fun m =>
    match x m with
    | (.ok a, m) => f a m
    | (.err c, m) => (.err c, m)
    | (.crash, m) => (.crash, m)
    | (.ub, m) => (.ub, m)

/-- Ending in another way than with a value. -/
def stop {α : Type} (r : Res α) : H α := fun m => (r, m)

/-- `BN_new` (and the copy made by `BN_dup`): `ok` tells which allocations succeed. -/
def alloc (ok : Nat → Bool) (v : Int) : H (Option Nat) := fun m =>
  if ok m.tick then
    (.ok (some m.next), { cell := set m.cell m.next (some v), next := m.next + 1, tick := m.tick + 1 })
  else (.ok none, { m with tick := m.tick + 1 })

/-- The library reads a number: undefined for a null pointer or one to a freed number. -/
def read (p : Option Nat) : H Int := fun m =>
  match p with
  | none => (.ub, m)
  | some a =>
    match m.cell a with
    | some v => (.ok v, m)
    | none => (.ub, m)

/-- The library changes a number. -/
def write (p : Option Nat) (v : Int) : H Unit := fun m =>
  match p with
  | none => (.ub, m)
  | some a =>
    match m.cell a with
    | some _ => (.ok (), { m with cell := set m.cell a (some v) })
    | none => (.ub, m)

/-- `BN_free`: nothing for a null pointer; undefined for a number freed before. -/
def free (p : Option Nat) : H Unit := fun m =>
  match p with
  | none => (.ok (), m)
  | some a =>
    match m.cell a with
    | some _ => (.ok (), { m with cell := set m.cell a none })
    | none => (.ub, m)

/-- big_num.cc:86-91 `BigNum(BN_CTX*)`: a new number, 0; the process ends if there is no memory. -/
def bnNew (ok : Nat → Bool) : H (Option Nat) := do
  match ← alloc ok 0 with
  | some a => return some a
  | none => stop .crash

/-- `BN_dup`: null for a null pointer and if there is no memory. -/
def bnDup (ok : Nat → Bool) : Option Nat → H (Option Nat)
  | none => return none
  | some a => do
    let v ← read (some a)
    alloc ok v

/-- The values behind the operands. -/
def readAll : List (Option Nat) → H (List Int)
  | [] => return []
  | p :: ps => do
    let v ← read p
    let vs ← readAll ps
    return v :: vs

/-- The operations that return a number (big_num.h:92-181; `ModSqrt` is like `ModExp`). -/
inductive Op where
  | add | sub | mul | div | divTrunc | exp | mod | modAdd | modSub | modMul | modExp | modSqr
  | modInverse | modNegate | neg | gcd
  | lastBits (n : Nat) | lshift (n : Int) | rshift (n : Int)
  deriving DecidableEq

/-- Their values, as in the rest of the model.  (A call with the wrong number of operands is not a
program.) -/
def Op.value : Op → List Int → Res Int
  | .add, [a, b] => .ok (BN.add a b)
  | .sub, [a, b] => .ok (BN.sub a b)
  | .mul, [a, b] => .ok (BN.mul a b)
  | .div, [a, b] => BN.div a b
  | .divTrunc, [a, b] => BN.divAndTruncate a b
  | .exp, [a, b] => .ok (BN.exp a b)
  | .mod, [a, m] => BN.mod a m
  | .modAdd, [a, b, m] => BN.modAdd a b m
  | .modSub, [a, b, m] => BN.modSub a b m
  | .modMul, [a, b, m] => BN.modMul a b m
  | .modExp, [a, e, m] => BN.modExp a e m
  | .modSqr, [a, m] => BN.modSqr a m
  | .modInverse, [a, m] => BN.modInverse a m
  | .modNegate, [a, m] => BN.modNegate a m
  | .neg, [a] => .ok (BN.neg a)
  | .gcd, [a, b] => .ok (BN.gcd a b)
  | .lastBits n, [a] => .ok (BN.getLastNBits a n)
  | .lshift n, [a] => BN.lshift a n
  | .rshift n, [a] => BN.rshift a n
  | _, _ => .ub

/-- What most operations do (big_num.cc:159-175, 203-266, 275-291): a new number `r`, into which the
library writes the result; `r` is destroyed when an error is returned (`ModInverse`). -/
def fresh (ok : Nat → Bool) (o : Op) (ps : List (Option Nat)) : H (Option Nat) := do
  let r ← bnNew ok
  let vs ← readAll ps
  match o.value vs with
  | .ok v => do
    write r v
    return r
  | .err c => do
    free r
    stop (.err c)
  | .crash => stop .crash
  | .ub => stop .ub

/-- big_num.cc:177-197 `Div` and `DivAndTruncate`: the remainder is a number of its own, destroyed at
the end. -/
def divide (ok : Nat → Bool) (o : Op) (ps : List (Option Nat)) : H (Option Nat) := do
  let r ← bnNew ok
  let rem ← bnNew ok
  let vs ← readAll ps
  match o.value vs with
  | .ok v => do
    write r v
    free rem
    return r
  | .err c => stop (.err c)
  | .crash => stop .crash
  | .ub => stop .ub

/-- big_num.cc:140-147 `GetLastNBits` and 153-157 `Neg`: a copy of the number, changed in place.  The
copy constructor (big_num.cc:50-51) does not look whether there was memory for it. -/
def changed (ok : Nat → Bool) (f : Int → Int) (p : Option Nat) : H (Option Nat) := do
  let r ← bnDup ok p
  let v ← read r
  write r (f v)
  return r

/-- big_num.cc:268-273 `ModNegate`: a copy of the number if it is zero; otherwise the residue is a
temporary number. -/
def modNegate (ok : Nat → Bool) (p m : Option Nat) : H (Option Nat) := do
  let v ← read p
  if v = 0 then bnDup ok p
  else do
    let t ← fresh ok .mod [p, m]
    let r ← fresh ok .sub [m, t]
    free t
    return r

/-- big_num.cc:237-244 `ModExp` looks at the exponent first. -/
def modExp (ok : Nat → Bool) (a e m : Option Nat) : H (Option Nat) := do
  let v ← read e
  if v < 0 then stop .crash
  else fresh ok .modExp [a, e, m]

/-- The operations on pointers. -/
def exec (ok : Nat → Bool) : Op → List (Option Nat) → H (Option Nat)
  | .neg, [a] => changed ok BN.neg a
  | .lastBits n, [a] => changed ok (fun v => BN.getLastNBits v n) a
  | .modNegate, [a, m] => modNegate ok a m
  | .modExp, [a, e, m] => modExp ok a e m
  | .div, ps => divide ok .div ps
  | .divTrunc, ps => divide ok .divTrunc ps
  | o, ps => fresh ok o ps

/-- ec_point.cc:74-91 `GetAffineCoordinates`: two new numbers, which the library sets; they are not
freed when it fails, which it does for the point at infinity (`none`), or when there was memory for
one of them only. -/
def coordinates (ok : Nat → Bool) (pt : Option (Int × Int)) :
    H (Option Nat × Option Nat) := do
  let x ← alloc ok 0
  let y ← alloc ok 0
  if x.isNone ∨ y.isNone then stop (.err .internal)
  else
    match pt with
    | none => stop (.err .internal)
    | some (vx, vy) => do
      write x vx
      write y vy
      return (x, y)

/-- ec_group.cc:292-303 `RecoverXFromPaddedPoint`: the first coordinate becomes a `BigNum`, the second
is freed at the end, and so is the first after the shift. -/
def recover (ok : Nat → Bool) (pt : Option (Int × Int)) (n : Nat) : H (Option Nat) := fun m =>
  match coordinates ok pt m with
  | (.ok (x, y), m) => (do
      let r ← fresh ok (.rshift n) [x]
      free x
      free y
      return r : H (Option Nat)) m
  | (.err _, m) => (.err .invalidArgument, m)
  | (.crash, m) => (.crash, m)
  | (.ub, m) => (.ub, m)

/-- The memory and the `BigNum` variables: `none` before a variable is made and after it is destroyed. -/
structure State where
  mem : Mem
  vars : Nat → Option (Option Nat)

/-- Statements of a program that uses numbers; variables are numbered. -/
inductive Stmt where
  /-- `BigNum x = ctx.CreateBigNum(v)` -/
  | make (x : Nat) (v : Nat)
  /-- `BigNum x(y)` -/
  | copy (x y : Nat)
  /-- `x = y` -/
  | assign (x y : Nat)
  /-- `BigNum x(std::move(y))` -/
  | moveNew (x y : Nat)
  /-- `x = std::move(y)` -/
  | moveAssign (x y : Nat)
  /-- `BigNum x = y.Op(...)` -/
  | op (x : Nat) (o : Op) (ys : List Nat)
  /-- `x = y.Op(...)`, also `x += y` and the like (big_num.h:213-255) -/
  | update (x : Nat) (o : Op) (ys : List Nat)
  /-- `BigNum x = group.RecoverXFromPaddedPoint(point, n)` for a point with these coordinates -/
  | recover (x : Nat) (pt : Option (Int × Int)) (n : Nat)
  /-- the end of the life of `x` -/
  | drop (x : Nat)
  deriving DecidableEq

/-- The pointers in the operands; using a variable that does not exist is not a program. -/
def operands (vars : Nat → Option (Option Nat)) : List Nat → Option (List (Option Nat))
  | [] => some []
  | y :: ys =>
    match vars y, operands vars ys with
    | some p, some ps => some (p :: ps)
    | _, _ => none

/-- A new variable for what a piece of code returns. -/
def declare (s : State) (x : Nat) (h : H (Option Nat)) : Res Unit × State :=
  match s.vars x with
  | some _ => (.ub, s)
  | none =>
    match h s.mem with
    | (.ok p, m) => (.ok (), ⟨m, set s.vars x (some p)⟩)
    | (.err c, m) => (.err c, ⟨m, s.vars⟩)
    | (.crash, m) => (.crash, ⟨m, s.vars⟩)
    | (.ub, m) => (.ub, ⟨m, s.vars⟩)

/-- big_num.cc:64-68: a variable takes over what a piece of code returns, and its old number is freed. -/
def takeOver (s : State) (x : Nat) (h : H (Option Nat)) : Res Unit × State :=
  match s.vars x with
  | none => (.ub, s)
  | some old =>
    match (do let p ← h; free old; return p : H (Option Nat)) s.mem with
    | (.ok p, m) => (.ok (), ⟨m, set s.vars x (some p)⟩)
    | (.err c, m) => (.err c, ⟨m, s.vars⟩)
    | (.crash, m) => (.crash, ⟨m, s.vars⟩)
    | (.ub, m) => (.ub, ⟨m, s.vars⟩)

/-- One statement: big_num.cc:50-84, 93-96, context.cc:51-61, and the destructor of `std::unique_ptr`. -/
def step (ok : Nat → Bool) : Stmt → State → Res Unit × State
  | .make x v, s => declare s x do
      let r ← bnNew ok
      write r v
      return r
  | .copy x y, s =>
    match s.vars y with
    | none => (.ub, s)
    | some q => declare s x (bnDup ok q)
  | .assign x y, s =>
    match s.vars y with
    | none => (.ub, s)
    | some q => takeOver s x do
        match ← bnDup ok q with
        | some a => return some a
        | none => stop .crash
  | .moveNew x y, s =>
    match s.vars y with
    | none => (.ub, s)
    | some q =>
      match s.vars x with
      | some _ => (.ub, s)
      | none => (.ok (), { s with vars := set (set s.vars y (some none)) x (some q) })
  | .moveAssign x y, s =>
    match s.vars x, s.vars y with
    | some old, some q =>
      -- the pointer is taken first, so that moving a variable to itself changes nothing
      let vars := set s.vars y (some none)
      match free (if x = y then none else old) s.mem with
      | (.ok _, m) => (.ok (), ⟨m, set vars x (some q)⟩)
      | (.err c, m) => (.err c, ⟨m, vars⟩)
      | (.crash, m) => (.crash, ⟨m, vars⟩)
      | (.ub, m) => (.ub, ⟨m, vars⟩)
    | _, _ => (.ub, s)
  | .op x o ys, s =>
    match operands s.vars ys with
    | none => (.ub, s)
    | some ps => declare s x (exec ok o ps)
  | .update x o ys, s =>
    match operands s.vars ys with
    | none => (.ub, s)
    | some ps => takeOver s x (exec ok o ps)
  | .recover x pt n, s => declare s x (recover ok pt n)
  | .drop x, s =>
    match s.vars x with
    | none => (.ub, s)
    | some p =>
      match free p s.mem with
      | (.ok _, m) => (.ok (), ⟨m, set s.vars x none⟩)
      | (.err c, m) => (.err c, ⟨m, s.vars⟩)
      | (.crash, m) => (.crash, ⟨m, s.vars⟩)
      | (.ub, m) => (.ub, ⟨m, s.vars⟩)

/-- A program: it goes on after an error status, and ends with the process. -/
def run (ok : Nat → Bool) : List Stmt → State → List (Res Unit) × State
  | [], s => ([], s)
  | c :: cs, s =>
    match step ok c s with
    | (.ok _, s) => let (rs, t) := run ok cs s; (.ok () :: rs, t)
    | (.err e, s) => let (rs, t) := run ok cs s; (.err e :: rs, t)
    | (.crash, s) => ([.crash], s)
    | (.ub, s) => ([.ub], s)

/-- Before the program. -/
def start : State := ⟨⟨fun _ => none, 0, 0⟩, fun _ => none⟩

end PJC.Obj
