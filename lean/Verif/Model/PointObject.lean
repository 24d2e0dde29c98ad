import Verif.Model.Base
import Mathlib.Algebra.Group.Basic
/-
Model of `ECPoint` objects as they are in memory: /repo/private_join_and_compute/crypto/ec_point.{h,cc}, and
the functions of ec_group.cc that make them.  An object holds a pointer to its curve and a pointer to a
point of the library, which it owns (`std::unique_ptr`); null after its point was moved away.
Simplified: curves are numbered, and the points of all of them are elements of one group `G` (a point of
the library knows its curve); the pointer to the `BN_CTX` and the numbers used as scalars are left out
(for these see Model/BnObject.lean).
-/
namespace PJC.Pt

/-- The points of the library: curve and value at an address (`none` if it is not allocated), the first
address never used, and the number of allocations tried so far. -/
structure Mem (G : Type) where
  cell : Nat → Option (Nat × G)
  next : Nat
  tick : Nat

/-- A function with one value replaced. -/
def set {α : Type} (f : Nat → α) (a : Nat) (v : α) : Nat → α := fun b => if b = a then v else f b

/-- What a piece of code does with the memory. -/
def H (G α : Type) := Mem G → Res α × Mem G

variable {G : Type}

instance : Monad (H G) where
  pure a := fun m => (.ok a, m)
  bind x f := fun m =>
    match x m with
    | (.ok a, m) => f a m
    | (.err c, m) => (.err c, m)
    | (.crash, m) => (.crash, m)
    | (.ub, m) => (.ub, m)

/-- Ending in another way than with a value. -/
def stop {α : Type} (r : Res α) : H G α := fun m => (r, m)

/-- `EC_POINT_new`: the point at infinity of the curve; `ok` tells which allocations succeed. -/
def alloc [Zero G] (ok : Nat → Bool) (g : Nat) : H G (Option Nat) := fun m =>
  if ok m.tick then
    (.ok (some m.next),
      { cell := set m.cell m.next (some (g, 0)), next := m.next + 1, tick := m.tick + 1 })
  else (.ok none, { m with tick := m.tick + 1 })

/-- The library reads a point: undefined for a null pointer or one to a freed point. -/
def read (p : Option Nat) : H G (Nat × G) := fun m =>
  match p with
  | none => (.ub, m)
  | some a =>
    match m.cell a with
    | some v => (.ok v, m)
    | none => (.ub, m)

/-- The library changes a point. -/
def write (p : Option Nat) (P : G) : H G Unit := fun m =>
  match p with
  | none => (.ub, m)
  | some a =>
    match m.cell a with
    | some (g, _) => (.ok (), { m with cell := set m.cell a (some (g, P)) })
    | none => (.ub, m)

/-- `EC_POINT_free`: nothing for a null pointer; undefined for a point freed before. -/
def free (p : Option Nat) : H G Unit := fun m =>
  match p with
  | none => (.ok (), m)
  | some a =>
    match m.cell a with
    | some _ => (.ok (), { m with cell := set m.cell a none })
    | none => (.ub, m)

/-- ec_point.h:104-106: the members of an object. -/
structure Var where
  group : Nat
  ptr : Option Nat
  deriving DecidableEq

/-- The memory and the `ECPoint` variables. -/
structure State (G : Type) where
  mem : Mem G
  vars : Nat → Option Var

/-- Statements of a program that uses points; variables and curves are numbered. -/
inductive Stmt (G : Type) where
  /-- `ECPoint x = group.CreateECPoint(bytes)` for bytes of this point, or of none -/
  | make (x g : Nat) (P : Option G)
  /-- `ECPoint x = y.Mul(n)` -/
  | mul (x y : Nat) (n : Int)
  /-- `ECPoint x = y.Add(z)` -/
  | add (x y z : Nat)
  /-- `ECPoint x = y.Clone()` -/
  | clone (x y : Nat)
  /-- `ECPoint x = y.Inverse()` -/
  | inverse (x y : Nat)
  /-- `ECPoint x(std::move(y))` -/
  | moveNew (x y : Nat)
  /-- `x = std::move(y)` -/
  | moveAssign (x y : Nat)
  /-- `x.IsPointAtInfinity()` -/
  | infinity (x : Nat)
  /-- `x == y` -/
  | same (x y : Nat)
  /-- the end of the life of `x` -/
  | drop (x : Nat)

/-- What a statement shows. -/
inductive Seen where
  | nothing
  | answer (b : Bool)
  deriving DecidableEq

variable [AddCommGroup G] [DecidableEq G]

/-- ec_group.cc:358-379 `CreateECPoint(bytes)`; 330-338 `GetFixedGenerator` and 381-394
`GetPointAtInfinity` are the same with a point that is always there.  The constructor (ec_point.cc:44-47)
makes a point which it throws away.  (A point that is decoded but not valid is refused after that.) -/
def make (ok : Nat → Bool) (g : Nat) (P : Option G) : H G (Option Nat) := do
  match ← alloc ok g with
  | none => stop (.err .internal)
  | some a =>
    match P with
    | none => do
      free (some a)
      stop (.err .invalidArgument)
    | some P => do
      write (some a) P
      let t ← alloc ok g
      free t
      return some a

/-- ec_point.cc:93-101 `Mul`: nobody looks whether there was memory for the result (ec_point.cc:31-34). -/
def mul (ok : Nat → Bool) (g : Nat) (p : Option Nat) (n : Int) : H G (Option Nat) := do
  let r ← alloc ok g
  let _ ← read r
  let (_, P) ← read p
  write r (n • P)
  return r

/-- ec_point.cc:103-111 `Add`: the library refuses a point of another curve, and then the result is
destroyed. -/
def add (ok : Nat → Bool) (g : Nat) (p q : Option Nat) : H G (Option Nat) := do
  let r ← alloc ok g
  let _ ← read r
  let (_, P) ← read p
  let (h, Q) ← read q
  if g = h then do
    write r (P + Q)
    return r
  else do
    free r
    stop (.err .internal)

/-- ec_point.cc:113-120 `Clone`. -/
def clone (ok : Nat → Bool) (g : Nat) (p : Option Nat) : H G (Option Nat) := do
  let r ← alloc ok g
  let _ ← read r
  let (_, P) ← read p
  write r P
  return r

/-- ec_point.cc:122-138 `Inverse`: a copy, inverted in place. -/
def inverse (ok : Nat → Bool) (g : Nat) (p : Option Nat) : H G (Option Nat) := do
  let r ← clone ok g p
  let (_, P) ← read r
  write r (-P)
  return r

/-- ec_point.cc:140-142 `IsPointAtInfinity`. -/
def atInfinity (p : Option Nat) : H G Bool := do
  let (_, P) ← read p
  return decide (P = 0)

/-- ec_point.cc:144-146 `CompareTo`: for points of two curves the library's comparison fails, which is
not 0. -/
def same (p q : Option Nat) : H G Bool := do
  let (g, P) ← read p
  let (h, Q) ← read q
  return decide (g = h ∧ P = Q)

/-- The outcome of a piece of code that does not change the variables. -/
def see (s : State G) (h : H G Bool) : Res Seen × State G :=
  match h s.mem with
  | (.ok a, m) => (.ok (.answer a), ⟨m, s.vars⟩)
  | (.err c, m) => (.err c, ⟨m, s.vars⟩)
  | (.crash, m) => (.crash, ⟨m, s.vars⟩)
  | (.ub, m) => (.ub, ⟨m, s.vars⟩)

/-- A new variable. -/
def declare (s : State G) (x g : Nat) (h : H G (Option Nat)) : Res Seen × State G :=
  match s.vars x with
  | some _ => (.ub, s)
  | none =>
    match h s.mem with
    | (.ok p, m) => (.ok .nothing, ⟨m, set s.vars x (some ⟨g, p⟩)⟩)
    | (.err e, m) => (.err e, ⟨m, s.vars⟩)
    | (.crash, m) => (.crash, ⟨m, s.vars⟩)
    | (.ub, m) => (.ub, ⟨m, s.vars⟩)

/-- One statement: the functions above, the moves of ec_point.h:43-44 (which move every member, and
leave the pointer to the curve where it was), and the destructor of `std::unique_ptr`. -/
def step (ok : Nat → Bool) : Stmt G → State G → Res Seen × State G
  | .make x g P, s => declare s x g (make ok g P)
  | .mul x y n, s =>
    match s.vars y with
    | none => (.ub, s)
    | some p => declare s x p.group (mul ok p.group p.ptr n)
  | .add x y z, s =>
    match s.vars y, s.vars z with
    | some p, some q => declare s x p.group (add ok p.group p.ptr q.ptr)
    | _, _ => (.ub, s)
  | .clone x y, s =>
    match s.vars y with
    | none => (.ub, s)
    | some p => declare s x p.group (clone ok p.group p.ptr)
  | .inverse x y, s =>
    match s.vars y with
    | none => (.ub, s)
    | some p => declare s x p.group (inverse ok p.group p.ptr)
  | .moveNew x y, s =>
    match s.vars x, s.vars y with
    | none, some q => (.ok .nothing, ⟨s.mem, set (set s.vars y (some ⟨q.group, none⟩)) x (some q)⟩)
    | _, _ => (.ub, s)
  | .moveAssign x y, s =>
    match s.vars x, s.vars y with
    | some old, some q =>
      -- the pointer is taken first, so that moving a variable to itself changes nothing
      let vars := set s.vars y (some ⟨q.group, none⟩)
      match free (if x = y then none else old.ptr) s.mem with
      | (.ok _, m) => (.ok .nothing, ⟨m, set vars x (some q)⟩)
      | (.err e, m) => (.err e, ⟨m, vars⟩)
      | (.crash, m) => (.crash, ⟨m, vars⟩)
      | (.ub, m) => (.ub, ⟨m, vars⟩)
    | _, _ => (.ub, s)
  | .infinity x, s =>
    match s.vars x with
    | none => (.ub, s)
    | some p => see s (atInfinity p.ptr)
  | .same x y, s =>
    match s.vars x, s.vars y with
    | some p, some q => see s (same p.ptr q.ptr)
    | _, _ => (.ub, s)
  | .drop x, s =>
    match s.vars x with
    | none => (.ub, s)
    | some p =>
      match free p.ptr s.mem with
      | (.ok _, m) => (.ok .nothing, ⟨m, set s.vars x none⟩)
      | (.err e, m) => (.err e, ⟨m, s.vars⟩)
      | (.crash, m) => (.crash, ⟨m, s.vars⟩)
      | (.ub, m) => (.ub, ⟨m, s.vars⟩)

/-- A program: it goes on after an error status, and ends with the process. -/
def run (ok : Nat → Bool) : List (Stmt G) → State G → List (Res Seen) × State G
  | [], s => ([], s)
  | c :: cs, s =>
    match step ok c s with
    | (.ok o, s) => let (rs, t) := run ok cs s; (.ok o :: rs, t)
    | (.err e, s) => let (rs, t) := run ok cs s; (.err e :: rs, t)
    | (.crash, s) => ([.crash], s)
    | (.ub, s) => ([.ub], s)

/-- Before the program. -/
def start : State G := ⟨⟨fun _ => none, 0, 0⟩, fun _ => none⟩

end PJC.Pt
