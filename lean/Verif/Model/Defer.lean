import Verif.Base.Box

/-!
Model of `estl/defer.hpp` for one function object type `Fn`. Simplification: running an
action does not touch the defer objects themselves.
-/

set_option backward.isDefEq.respectTransparency false

namespace Verif.Defer
open Verif Verif.Box

/-- The members `exit_scope_` (an action, numbered) and `dismiss_` (estl/defer.hpp:38-39). -/
structure Obj where
  exitScope : Nat
  dismiss : Bool
  deriving DecidableEq, Repr

/-- The defer objects that exist and the actions run so far, newest first (estl/defer.hpp:6-57). -/
structure St where
  obj : Slot → Option Obj
  ran : List Nat

/-- Nothing exists (no code; start of a program using estl/defer.hpp). -/
def St.init : St := ⟨fun _ => none, []⟩

/-- A live object (no code; used for estl/defer.hpp). -/
def find (s : St) (k : Slot) : Res Obj :=
  match s.obj k with
  | some o => .ok o
  | none => .ub

/-- Begin a lifetime (no code; used for the constructors in estl/defer.hpp). -/
def create (s : St) (k : Slot) (o : Obj) : Res St :=
  match s.obj k with
  | none => .ok { s with obj := upd s.obj k (some o) }
  | some _ => .ub

/-- `defer(Fn&&)`, estl/defer.hpp:9-10; `make_defer` (42-45) and the macros `defer_scope`,
`defer_lamda` (57-58) construct in place (the returned prvalue is not copied). -/
def ctor (s : St) (k : Slot) (a : Nat) : Res St := create s k ⟨a, false⟩

/-- `defer(const defer&)`, estl/defer.hpp:12-13. -/
def copyCtor (s : St) (k j : Slot) : Res St := do
  let o ← find s j
  create s k o

/-- `defer(defer&&)`, estl/defer.hpp:15-16: `exit_scope_` is initialised from itself. If `Fn`
has members (`state`, e.g. a lambda with captures or a function pointer) this reads
indeterminate values; otherwise every `Fn` object is the same action, that of `rhs`. `rhs` is
left as it is. -/
def moveCtor (state : Bool) (s : St) (k j : Slot) : Res St := do
  let o ← find s j
  if state then .ub else create s k o

/-- `dismiss`, estl/defer.hpp:23-25. -/
def dismiss (s : St) (k : Slot) : Res St := do
  let o ← find s k
  .ok { s with obj := upd s.obj k (some { o with dismiss := true }) }

/-- `~defer()`, estl/defer.hpp:27-30. -/
def dtor (s : St) (k : Slot) : Res St := do
  let o ← find s k
  .ok ⟨upd s.obj k none, if !o.dismiss then o.exitScope :: s.ran else s.ran⟩

/-- `swap`, estl/defer.hpp:32-35. -/
def swap (s : St) (k j : Slot) : Res St := do
  let o ← find s k
  let o' ← find s j
  .ok { s with obj := upd (upd s.obj k (some o')) j (some o) }

/-- `operator=` from an lvalue, estl/defer.hpp:18-21. -/
def assignCopy (s : St) (k j : Slot) : Res St := do
  let s ← copyCtor s .temp j
  let s ← swap s .temp k
  dtor s .temp

/-- `operator=` from an rvalue, estl/defer.hpp:18-21. -/
def assignMove (state : Bool) (s : St) (k j : Slot) : Res St := do
  let s ← moveCtor state s .temp j
  let s ← swap s .temp k
  dtor s .temp

/-- What a program can do without copying, moving or assigning (estl/defer.hpp:6-57). -/
inductive Op where
  | make (k a : Nat)
  | dismiss (k : Nat)
  | dtor (k : Nat)
  | swap (k j : Nat)

/-- One call; the line numbers are at the functions called (estl/defer.hpp:6-57). -/
def step (s : St) : Op → Res St
  | .make k a => ctor s (.user k) a
  | .dismiss k => Defer.dismiss s (.user k)
  | .dtor k => Defer.dtor s (.user k)
  | .swap k j => Defer.swap s (.user k) (.user j)

/-- A history of calls (no code) (estl/defer.hpp). -/
def run (s : St) : List Op → Res St
  | [] => .ok s
  | o :: os => do
    let s ← step s o
    run s os

end Verif.Defer
