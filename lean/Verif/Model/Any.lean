import Verif.Base.Box

/-!
Model of `estl/any.hpp`.

Simplifications: the copy constructor, move constructor and destructor of a held type
touch nothing but the value itself; what a move leaves behind is a parameter. An object
that does not exist yet or no longer must not be used (`ub`). `any_cast` needs run-time type
information, which the kernel is built without (kernel/Makefile:2).
-/

set_option backward.isDefEq.respectTransparency false

namespace Verif.Any
open Verif Verif.Box

/-- Types that can be held: class or scalar types, and pointers (arrays and functions have
become pointers) (the template parameters of estl/any.hpp:5-121). -/
inductive Ty where
  | base (n : Nat)
  | ptr (t : Ty)
  deriving DecidableEq, Repr

/-- What the model needs to know about the held types with values in `V`: the value of `T()`
and what is left of a value after moving from it (the uses of `T` in estl/any.hpp:5-121). -/
structure Types (V : Type) where
  dflt : Ty → V
  moved : Ty → V → V

/-- A `Holder<T>` (estl/any.hpp:77-96): its type and `val`. -/
abbrev Holder (V : Type) := Ty × V

/-- The any objects with the heap (`box`), and the other variables of the program
(estl/any.hpp:5-121). -/
structure St (V : Type) where
  box : Box.St (Holder V)
  var : Nat → Option (Ty × V)

variable {V : Type}

/-- Nothing exists (no code; start of a program using estl/any.hpp). -/
def St.init : St V := ⟨.init, fun _ => none⟩

/-- Run a step of the heap part (no code; used for estl/any.hpp). -/
def lift (s : St V) (r : Res (Box.St (Holder V))) : Res (St V) := do
  let b ← r
  .ok { s with box := b }

/-- `any()`, estl/any.hpp:7-8. -/
def ctor (s : St V) (k : Slot) : Res (St V) := lift s (create s.box k none)

/-- `any(const any&)`, estl/any.hpp:14-15, with `clone` (88-90: `new Holder(val)` copies). -/
def copyCtor (s : St V) (k j : Slot) : Res (St V) := do
  let c ← ptr s.box j
  match c with
  | none => lift s (create s.box k none)
  | some p => do
    let o ← deref s.box (some p)
    let (q, b) := alloc s.box o
    lift s (create b k (some q))

/-- `any(any&&)`, estl/any.hpp:21-24. -/
def moveCtor (s : St V) (k j : Slot) : Res (St V) := do
  let c ← ptr s.box j
  let b ← create s.box k c
  lift s (setPtr b j none)

/-- `any(T*, Args&&...)`, estl/any.hpp:26-28; `v` is the value constructed from the arguments.
Also `make_any<T>(args)` (112-115). -/
def inPlaceCtor (s : St V) (k : Slot) (t : Ty) (v : V) : Res (St V) :=
  let (q, b) := alloc s.box (t, v)
  lift s (create b k (some q))

/-- `any a(expr)` with an rvalue of type `t` that is not an `any`: `any(T&&)`,
estl/any.hpp:17-19. For a pointer `X*` both `any(T&&)` and `any(T*, Args&&...)` (26-28) match
exactly and the latter is the more specialised template, with no `args`. -/
def valueCtor (E : Types V) (s : St V) (k : Slot) (t : Ty) (v : V) : Res (St V) :=
  match t with
  | .ptr x => inPlaceCtor s k x (E.dflt x)
  | .base n =>
    let (q, b) := alloc s.box (.base n, v)
    lift s (create b k (some q))

/-- `any a(x)` with a non-const variable `x`: as above, and `any(T&&)` moves from it
(estl/any.hpp:19). For a const variable `any(const T&)` (10-12) is chosen, which does not
compile. -/
def lvalueCtor (E : Types V) (s : St V) (k : Slot) (x : Nat) : Res (St V) :=
  match s.var x with
  | none => .ub
  | some (t, v) => do
    let s ← valueCtor E s k t v
    match t with
    | .ptr _ => .ok s
    | .base n => .ok { s with var := upd s.var x (some (.base n, E.moved (.base n) v)) }

/-- `~any()`, estl/any.hpp:30-33. -/
def dtor (s : St V) (k : Slot) : Res (St V) := do
  let c ← ptr s.box k
  let b ← deleteIf s.box c
  lift s (destroy b k)

/-- `swap`, estl/any.hpp:35-38 and 117-119. -/
def swap (s : St V) (k j : Slot) : Res (St V) := lift s (Box.swap s.box k j)

/-- `a = expr` with an rvalue that is not an `any`, estl/any.hpp:40-44. -/
def assignValue (E : Types V) (s : St V) (k : Slot) (t : Ty) (v : V) : Res (St V) := do
  let s ← valueCtor E s .temp t v
  let s ← swap s .temp k
  dtor s .temp

/-- `a = x` with a non-const variable `x`, estl/any.hpp:40-44. -/
def assignLvalue (E : Types V) (s : St V) (k : Slot) (x : Nat) : Res (St V) := do
  let s ← lvalueCtor E s .temp x
  let s ← swap s .temp k
  dtor s .temp

/-- `a = b` with an `any` lvalue: the parameter of estl/any.hpp:46-49 is copied. -/
def assignCopy (s : St V) (k j : Slot) : Res (St V) := do
  let s ← copyCtor s .temp j
  let s ← swap s .temp k
  dtor s .temp

/-- `a = move(b)`: the parameter of estl/any.hpp:46-49 is move constructed. -/
def assignMove (s : St V) (k j : Slot) : Res (St V) := do
  let s ← moveCtor s .temp j
  let s ← swap s .temp k
  dtor s .temp

/-- `clear`, estl/any.hpp:59-61. -/
def clear (s : St V) (k : Slot) : Res (St V) := do
  let s ← ctor s .temp
  let s ← swap s .temp k
  dtor s .temp

/-- `emplace<T>(args)`, estl/any.hpp:63-67; the arguments are not part of a value held by an any. -/
def emplace (s : St V) (k : Slot) (t : Ty) (v : V) : Res (St V) := do
  let s ← clear s k
  let (q, b) := alloc s.box (t, v)
  lift s (setPtr b k (some q))

/-- `empty`, estl/any.hpp:55-57; `operator bool` (51-53) is its negation. -/
def empty (s : St V) (k : Slot) : Res Bool := do
  let c ← ptr s.box k
  .ok (c == none)

/-- `any_cast<T>`, estl/any.hpp:104-110: the address of the holder whose `val` the result
points to, or null. -/
def anyCast (s : St V) (k : Slot) (t : Ty) : Res (Option Nat) := do
  let c ← ptr s.box k
  match c with
  | none => .ok none
  | some p => do
    let o ← deref s.box (some p)
    .ok (if o.1 = t then some p else none)

/-- `*any_cast<T>(a)` read by the program (estl/any.hpp:104-110). -/
def castRead (s : St V) (k : Slot) (t : Ty) : Res V := do
  let c ← anyCast s k t
  let o ← deref s.box c
  .ok o.2

/-- `*any_cast<T>(a) = v` in the program (estl/any.hpp:104-110). -/
def castWrite (s : St V) (k : Slot) (t : Ty) (v : V) : Res (St V) := do
  let c ← anyCast s k t
  lift s (write s.box c (t, v))

/-- `a.emplace<T>(*any_cast<T>(b))`, estl/any.hpp:63-67: the argument is a reference to the value held by
`b`, from which `val` is copied (86-87) after the call of `clear`. -/
def emplaceFrom (s : St V) (k j : Slot) (t : Ty) : Res (St V) := do
  let c ← anyCast s j t
  let s ← clear s k
  let o ← deref s.box c
  let (q, b) := alloc s.box (t, o.2)
  lift s (setPtr b k (some q))

/-- `a = *any_cast<T>(b)`, estl/any.hpp:40-44: the temporary is constructed by `any(T&&)` (17-19), which
moves from the value held by `b`, or by `any(T*, Args&&...)` (26-28) if it is a pointer. -/
def assignFrom (E : Types V) (s : St V) (k j : Slot) (t : Ty) : Res (St V) := do
  let v ← castRead s j t
  let s ← match t with
    | .ptr _ => .ok s
    | .base n => castWrite s j (.base n) (E.moved (.base n) v)
  let s ← valueCtor E s .temp t v
  let s ← swap s .temp k
  dtor s .temp

/-- What a program can do with its any objects (numbered) and variables
(the public interface, estl/any.hpp:5-121). -/
inductive Op (V : Type) where
  | ctor (k : Nat)
  | copy (k j : Nat)
  | move (k j : Nat)
  | value (k : Nat) (t : Ty) (v : V)
  | lvalue (k : Nat) (x : Nat)
  | make (k : Nat) (t : Ty) (v : V)
  | dtor (k : Nat)
  | swap (k j : Nat)
  | asgValue (k : Nat) (t : Ty) (v : V)
  | asgLvalue (k : Nat) (x : Nat)
  | asgCopy (k j : Nat)
  | asgMove (k j : Nat)
  | clear (k : Nat)
  | emplace (k : Nat) (t : Ty) (v : V)
  | emplaceFrom (k j : Nat) (t : Ty)
  | asgFrom (k j : Nat) (t : Ty)
  | write (k : Nat) (t : Ty) (v : V)
  | setVar (x : Nat) (t : Ty) (v : V)

/-- One call; the line numbers are at the functions called (estl/any.hpp:5-121). -/
def step (E : Types V) (s : St V) : Op V → Res (St V)
  | .ctor k => Any.ctor s (.user k)
  | .copy k j => copyCtor s (.user k) (.user j)
  | .move k j => moveCtor s (.user k) (.user j)
  | .value k t v => valueCtor E s (.user k) t v
  | .lvalue k x => lvalueCtor E s (.user k) x
  | .make k t v => inPlaceCtor s (.user k) t v
  | .dtor k => Any.dtor s (.user k)
  | .swap k j => Any.swap s (.user k) (.user j)
  | .asgValue k t v => assignValue E s (.user k) t v
  | .asgLvalue k x => assignLvalue E s (.user k) x
  | .asgCopy k j => assignCopy s (.user k) (.user j)
  | .asgMove k j => assignMove s (.user k) (.user j)
  | .clear k => Any.clear s (.user k)
  | .emplace k t v => Any.emplace s (.user k) t v
  | .emplaceFrom k j t => Any.emplaceFrom s (.user k) (.user j) t
  | .asgFrom k j t => assignFrom E s (.user k) (.user j) t
  | .write k t v => castWrite s (.user k) t v
  | .setVar x t v => .ok { s with var := upd s.var x (some (t, v)) }

/-- A history of calls (no code) (estl/any.hpp). -/
def run (E : Types V) (s : St V) : List (Op V) → Res (St V)
  | [] => .ok s
  | o :: os => do
    let s ← step E s o
    run E s os

end Verif.Any
