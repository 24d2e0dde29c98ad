import Verif.Model.BnObject
import Verif.Model.Exp
/-
Model of `MontBigNum` objects as they are in memory: /repo/private_join_and_compute/crypto/mont_mul.{h,cc}.
An object holds a pointer to its context and a pointer to a number of the library in Montgomery form,
which it owns.  Memory and the library's numbers are those of Model/BnObject.lean.
Simplified: the contexts are there during the whole program, and are numbered; the pointer to the
`BN_CTX` is left out.
-/
namespace PJC.Obj

/-- mont_mul.h:98-100: the members of an object; the number is null after it was moved away. -/
structure MontVar where
  ctx : Nat
  ptr : Option Nat
  deriving DecidableEq

/-- The memory and the `MontBigNum` variables. -/
structure MontState where
  mem : Mem
  vars : Nat → Option MontVar

/-- Statements of a program that uses Montgomery numbers; variables and contexts are numbered. -/
inductive MontStmt where
  /-- `MontBigNum x = context.CreateMontBigNum(v)` -/
  | make (x c : Nat) (v : Int)
  /-- `MontBigNum x = context.CreateMontBigNum(y.ToBytes())` -/
  | reload (x c y : Nat)
  /-- `MontBigNum x(y)` -/
  | copy (x y : Nat)
  /-- `x = y` -/
  | assign (x y : Nat)
  /-- `MontBigNum x(std::move(y))` -/
  | moveNew (x y : Nat)
  /-- `x = std::move(y)` -/
  | moveAssign (x y : Nat)
  /-- `MontBigNum x = y * z` -/
  | mul (x y z : Nat)
  /-- `x *= y` -/
  | mulIn (x y : Nat)
  /-- `x.ToBigNum()`, and the result is looked at -/
  | value (x : Nat)
  /-- `x == y` -/
  | same (x y : Nat)
  /-- the end of the life of `x` -/
  | drop (x : Nat)
  deriving DecidableEq

/-- What a statement shows. -/
inductive Seen where
  | nothing
  | number (v : Int)
  | answer (b : Bool)
  deriving DecidableEq

/-- mont_mul.cc:99-106 `CreateMontBigNum(const BigNum&)`: a copy, converted in place. -/
def montMake (ok : Nat → Bool) (k : MontCtx) (v : Int) : H (Option Nat) :=
  if k.modulus ≤ v then stop .crash
  else do
    match ← alloc ok v with
    | none => stop .crash
    | some a => do
      let w ← read (some a)
      match Mont.create k w with
      | .ok u => do
        write (some a) u
        return some a
      | _ => stop .crash

/-- mont_mul.cc:50-57 and 79-84: a new number, filled from the bytes of another.  Nobody looks whether
there was memory for the new number; `BN_bin2bn` makes one itself if it is given none, and this one is
lost. -/
def montReload (ok : Nat → Bool) (q : Option Nat) : H (Option Nat) := do
  let v ← read q
  let bytes := Mont.toBytes v
  match ← alloc ok 0 with
  | some a => do
    write (some a) (Mont.createFromBytes bytes)
    return some a
  | none =>
    match ← alloc ok (Mont.createFromBytes bytes) with
    | some _ => return none
    | none => stop .crash

/-- mont_mul.cc:65-71 `MulInPlace` after its check of the contexts. -/
def montMulIn (k : MontCtx) (p q : Option Nat) : H Unit := do
  let a ← read p
  let b ← read q
  write p (Mont.mul k a b)

/-- mont_mul.cc:59-63 `Mul`: a copy, multiplied in place; `same` tells whether the contexts are equal. -/
def montMul (ok : Nat → Bool) (k : MontCtx) (same : Bool) (p q : Option Nat) : H (Option Nat) := do
  let r ← bnDup ok p
  if same then do
    montMulIn k r q
    return r
  else stop .crash

/-- mont_mul.cc:86-93 `ToBigNum`, and the end of the result's life after a look at it. -/
def montValue (ok : Nat → Bool) (k : MontCtx) (p : Option Nat) : H Int := do
  match ← alloc ok 0 with
  | none => stop .crash
  | some t => do
    let v ← read p
    write (some t) (Mont.toBigNum k v)
    let u ← read (some t)
    free (some t)
    return u

/-- mont_mul.cc:73-76 `operator==` after its check of the contexts.  (The library's `BN_cmp` also has an
answer for null pointers; a comparison with a number that was moved away is taken for undefined.) -/
def montSame (p q : Option Nat) : H Bool := do
  let a ← read p
  let b ← read q
  return Mont.eq a b

/-- The outcome of a piece of code that does not change the variables. -/
def montSee {α : Type} (s : MontState) (see : α → Seen) (h : H α) : Res Seen × MontState :=
  match h s.mem with
  | (.ok a, m) => (.ok (see a), ⟨m, s.vars⟩)
  | (.err c, m) => (.err c, ⟨m, s.vars⟩)
  | (.crash, m) => (.crash, ⟨m, s.vars⟩)
  | (.ub, m) => (.ub, ⟨m, s.vars⟩)

/-- A new variable. -/
def montDeclare (s : MontState) (x c : Nat) (h : H (Option Nat)) : Res Seen × MontState :=
  match s.vars x with
  | some _ => (.ub, s)
  | none =>
    match h s.mem with
    | (.ok p, m) => (.ok .nothing, ⟨m, set s.vars x (some ⟨c, p⟩)⟩)
    | (.err e, m) => (.err e, ⟨m, s.vars⟩)
    | (.crash, m) => (.crash, ⟨m, s.vars⟩)
    | (.ub, m) => (.ub, ⟨m, s.vars⟩)

/-- One statement: mont_mul.cc:28-48 and the functions above. -/
def montStep (ok : Nat → Bool) (k : Nat → MontCtx) : MontStmt → MontState → Res Seen × MontState
  | .make x c v, s => montDeclare s x c (montMake ok (k c) v)
  | .reload x c y, s =>
    match s.vars y with
    | none => (.ub, s)
    | some q =>
      -- mont_mul.h:123-125: only for equal moduli; what else comes of it is not modelled
      if (k c).modulus = (k q.ctx).modulus then montDeclare s x c (montReload ok q.ptr) else (.ub, s)
  | .copy x y, s =>
    match s.vars y with
    | none => (.ub, s)
    | some q => montDeclare s x q.ctx (bnDup ok q.ptr)
  | .assign x y, s =>
    match s.vars x, s.vars y with
    | some old, some q =>
      -- the copy is made before the old number is freed
      match (do let p ← bnDup ok q.ptr; free old.ptr; return p : H (Option Nat)) s.mem with
      | (.ok p, m) => (.ok .nothing, ⟨m, set s.vars x (some ⟨q.ctx, p⟩)⟩)
      | (.err e, m) => (.err e, ⟨m, s.vars⟩)
      | (.crash, m) => (.crash, ⟨m, s.vars⟩)
      | (.ub, m) => (.ub, ⟨m, s.vars⟩)
    | _, _ => (.ub, s)
  | .moveNew x y, s =>
    match s.vars x, s.vars y with
    | none, some q => (.ok .nothing, ⟨s.mem, set (set s.vars y (some ⟨q.ctx, none⟩)) x (some q)⟩)
    | _, _ => (.ub, s)
  | .moveAssign x y, s =>
    match s.vars x, s.vars y with
    | some old, some q =>
      -- the pointer is taken first, so that moving a variable to itself changes nothing
      let vars := set s.vars y (some ⟨q.ctx, none⟩)
      match free (if x = y then none else old.ptr) s.mem with
      | (.ok _, m) => (.ok .nothing, ⟨m, set vars x (some q)⟩)
      | (.err e, m) => (.err e, ⟨m, vars⟩)
      | (.crash, m) => (.crash, ⟨m, vars⟩)
      | (.ub, m) => (.ub, ⟨m, vars⟩)
    | _, _ => (.ub, s)
  | .mul x y z, s =>
    match s.vars y, s.vars z with
    | some p, some q => montDeclare s x p.ctx (montMul ok (k p.ctx) (p.ctx == q.ctx) p.ptr q.ptr)
    | _, _ => (.ub, s)
  | .mulIn x y, s =>
    match s.vars x, s.vars y with
    | some p, some q =>
      if p.ctx = q.ctx then montSee s (fun _ => .nothing) (montMulIn (k p.ctx) p.ptr q.ptr)
      else (.crash, s)
    | _, _ => (.ub, s)
  | .value x, s =>
    match s.vars x with
    | none => (.ub, s)
    | some p => montSee s .number (montValue ok (k p.ctx) p.ptr)
  | .same x y, s =>
    match s.vars x, s.vars y with
    | some p, some q =>
      if p.ctx = q.ctx then montSee s .answer (montSame p.ptr q.ptr) else (.crash, s)
    | _, _ => (.ub, s)
  | .drop x, s =>
    match s.vars x with
    | none => (.ub, s)
    | some p =>
      match free p.ptr s.mem with
      | (.ok _, m) => (.ok .nothing, ⟨m, set s.vars x none⟩)
      | (.err e, m) => (.err e, ⟨m, s.vars⟩)
      | (.crash, m) => (.crash, ⟨m, s.vars⟩)
      | (.ub, m) => (.ub, ⟨m, s.vars⟩)

/-- A program; it ends with the process.  (No statement returns an error status.) -/
def montRun (ok : Nat → Bool) (k : Nat → MontCtx) : List MontStmt → MontState →
    List (Res Seen) × MontState
  | [], s => ([], s)
  | c :: cs, s =>
    match montStep ok k c s with
    | (.ok o, s) => let (rs, t) := montRun ok k cs s; (.ok o :: rs, t)
    | (r, s) => ([r], s)

/-- Before the program. -/
def montStart : MontState := ⟨⟨fun _ => none, 0, 0⟩, fun _ => none⟩

end PJC.Obj
